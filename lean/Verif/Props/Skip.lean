import Verif.Spec.Skip
import Verif.Props.Bracket
import Verif.Props.Usage
/-
C89: a disabled pass without substitute is as if it weren't there.
-/
namespace Verif.Skip
open Verif.Rec Verif.Run Verif.Att Verif.Gpu

/-- What announcements change of a context. -/
structure Upd where
  nextImages : LayoutMap
  prev : AccessState
  curr : AccessState
  next : AccessState

/-- The context, announced otherwise. -/
def Upd.on (x : Upd) (c : Ctx) : Ctx := { c with nextImages := x.nextImages, prev := x.prev, curr := x.curr, next := x.next }

/-- The recording, announced otherwise. -/
def up (x : Upd) (r : Rec) : Rec := { r with ctx := x.on r.ctx }

theorem up_ite {c : Prop} [Decidable c] (x : Upd) (a b : Rec) : (if c then up x a else up x b) = up x (if c then a else b) := by
  split <;> rfl

theorem up_imageBarrier (env x r img vt sub i w f) :
    Rec.imageBarrier env (up x r) img vt sub i w f = up x (Rec.imageBarrier env r img vt sub i w f) := by
  unfold Rec.imageBarrier
  refine Eq.trans ?_ (apply_ite (up x) _ _ _).symm
  rfl

theorem up_viewBarrier (env x r v i w f) : Rec.viewBarrier env (up x r) v i w f = up x (Rec.viewBarrier env r v i w f) :=
  up_imageBarrier ..

theorem up_bufferBarrier (x r b o s i w f) : Rec.bufferBarrier (up x r) b o s i w f = up x (Rec.bufferBarrier r b o s i w f) := by
  unfold Rec.bufferBarrier
  refine Eq.trans ?_ (apply_ite (up x) _ _ _).symm
  rfl

theorem up_emit (x r c) : Rec.emit (up x r) c = up x (Rec.emit r c) := rfl

theorem up_finalBarrier (env x r v f) : Rec.finalBarrier env (up x r) v f = up x (Rec.finalBarrier env r v f) := by
  unfold Rec.finalBarrier
  rw [up_viewBarrier]
  exact up_ite ..

theorem up_doCopy (env x r s d w h f) : Rec.doCopy env (up x r) s d w h f = up x (Rec.doCopy env r s d w h f) := by
  simp only [Rec.doCopy, up_viewBarrier, up_emit, up_finalBarrier]

theorem up_doBlit (env x r s d a b c e f g h i j k) :
    Rec.doBlit env (up x r) s d a b c e f g h i j k = up x (Rec.doBlit env r s d a b c e f g h i j k) := by
  simp only [Rec.doBlit, up_viewBarrier, up_emit, up_finalBarrier]

theorem up_doClear (env x r d v f) : Rec.doClear env (up x r) d v f = up x (Rec.doClear env r d v f) := by
  simp only [Rec.doClear, up_viewBarrier, up_emit, up_finalBarrier]

theorem up_runImplicitN (env : Env) (x : Upd) (n : Nat) : ∀ (r : Rec) (v : View),
    Rec.runImplicitN env n (up x r) v = up x (Rec.runImplicitN env n r v) := by
  induction n with
  | zero => exact fun r v => rfl
  | succ n ih =>
    intro r v
    unfold Rec.runImplicitN
    show (match r.ctx.implicit.find? (Implicit.isFor v) with | none => _ | some t => _) = _
    cases r.ctx.implicit.find? (Implicit.isFor v) with
    | none => rfl
    | some t =>
      simp only
      generalize hr1 : ({ r with ctx := { r.ctx with implicit := r.ctx.implicit.eraseP (Implicit.isFor v) } } : Rec) = r1
      have h1 : ({ up x r with ctx := { (up x r).ctx with implicit := (up x r).ctx.implicit.eraseP (Implicit.isFor v) } } : Rec)
          = up x r1 := by rw [← hr1]; rfl
      rw [h1]
      split
      · rfl
      · cases t.action with
        | nothing => rfl
        | user k => rfl
        | copy s d w h f => simp only [ih, up_doCopy]
        | blit s d a b c e f g h i j k => simp only [ih, up_doBlit]
        | clear d w f => simp only [up_doClear]

theorem up_current (G x c v) : getCurrentLayoutState G (Upd.on x c) v
    = ((getCurrentLayoutState G c v).1, x.on (getCurrentLayoutState G c v).2) := by
  unfold getCurrentLayoutState
  simp only [show (Upd.on x c).images = c.images from rfl]
  repeat' split
  all_goals first | rfl | simp_all

theorem up_recordImage (env G index x r a) :
    recordImage env G index (up x r) a = (recordImage env G index r a).map (up x) := by
  unfold recordImage
  cases a.img.view index with
  | none => rfl
  | some v =>
    simp only
    have h1 : Rec.runImplicit env (up x r) v = up x (Rec.runImplicit env r v) := up_runImplicitN ..
    rw [h1]
    generalize Rec.runImplicit env r v = r1
    have h2 : (if (!a.isInput) = true then (makeLayoutState Layout.undefined, (up x r1).ctx) else getCurrentLayoutState G (up x r1).ctx v)
        = (fun y : LayoutState × Ctx => (y.1, x.on y.2))
          (if (!a.isInput) = true then (makeLayoutState Layout.undefined, r1.ctx) else getCurrentLayoutState G r1.ctx v) := by
      split
      · rfl
      · exact up_current ..
    rw [h2]
    generalize (if (!a.isInput) = true then (makeLayoutState Layout.undefined, r1.ctx) else getCurrentLayoutState G r1.ctx v) = y
    have h3 : ({ up x r1 with ctx := x.on y.2 } : Rec) = up x { r1 with ctx := y.2 } := rfl
    simp only [h3, up_viewBarrier, up_emit]
    split
    · split <;> rfl
    · rfl

theorem up_recordBuffer (compute index x r a) :
    recordBuffer compute index (up x r) a = (recordBuffer compute index r a).map (up x) := by
  unfold recordBuffer
  split
  · cases a.buf.buffer index with
    | none => rfl
    | some b =>
      simp only [up_bufferBarrier, up_emit, show (up x r).ctx.getAccess b = r.ctx.getAccess b from rfl]
      split <;> rfl
  · rfl

theorem up_foldOpt {α : Type} (f : Rec → α → Option Rec) (x : Upd) (h : ∀ r a, f (up x r) a = (f r a).map (up x)) (l : List α) :
    ∀ r, foldOpt f (up x r) l = (foldOpt f r l).map (up x) := by
  induction l with
  | nil => exact fun r => rfl
  | cons a l ih =>
    intro r
    unfold foldOpt
    rw [h]
    cases f r a with
    | none => rfl
    | some r1 => exact ih r1

theorem up_foldl {α : Type} (f : Rec → α → Rec) (x : Upd) (h : ∀ r a, f (up x r) a = up x (f r a)) (l : List α) :
    ∀ r, l.foldl f (up x r) = up x (l.foldl f r) := by
  induction l with
  | nil => exact fun r => rfl
  | cons a l ih => intro r; rw [List.foldl_cons, List.foldl_cons, h, ih]

theorem up_prepare (env G p index x r) : prepare env G p index (up x r) = (prepare env G p index r).map (up x) := by
  unfold prepare
  rw [up_foldOpt _ x (fun r a => up_recordImage env G index x r a)]
  cases foldOpt (recordImage env G index) r p.images with
  | none => rfl
  | some r1 => exact up_foldOpt _ x (fun r a => up_recordBuffer _ index x r a) _ _

theorem up_perform (sepDS x r c) : perform sepDS (up x r) c = up x (perform sepDS r c) := by
  cases c with
  | barrier v i w f => exact up_viewBarrier ..
  | buffer q => exact up_bufferBarrier ..
  | register t => rfl
  | use v en => exact up_runImplicitN ..
  | work k => rfl

theorem up_copyPairs (env size final index x) : ∀ (n : Nat) (l : List Attachment), l.length ≤ n → ∀ r : Rec,
    Xfer.copyPairs env size final index l (up x r) = (Xfer.copyPairs env size final index l r).map (up x) := by
  intro n
  induction n with
  | zero =>
    intro l hl r
    match l, hl with
    | [], _ => rfl
  | succ n ih =>
    intro l hl r
    match l, hl with
    | [], _ => rfl
    | [_], _ => rfl
    | s :: t :: rest, hl =>
      unfold Xfer.copyPairs
      have h : Xfer.copyPair env size final index (up x r) s t = (Xfer.copyPair env size final index r s t).map (up x) := by
        unfold Xfer.copyPair
        cases s.img.view index with
        | none => rfl
        | some a =>
          cases t.img.view index with
          | none => rfl
          | some b => simp only [up_emit, up_finalBarrier]; rfl
      rw [h]
      cases Xfer.copyPair env size final index r s t with
      | none => rfl
      | some r1 => exact ih rest (by simp at hl; omega) r1

theorem up_generate (env G v ty next x r) : Mip.generate env G v ty next (up x r) = up x (Mip.generate env G v ty next r) := by
  unfold Mip.generate
  refine up_foldl _ x (fun r layer => ?_) _ r
  unfold Mip.layerStep
  simp only
  rw [show (up x r).ctx = x.on r.ctx from rfl, up_current]
  show List.foldl _ (Rec.imageBarrier env (up x { r with ctx := (getCurrentLayoutState G r.ctx _).2 }) _ _ _ _ _ _) _ = _
  rw [up_imageBarrier]
  refine up_foldl _ x (fun r l => ?_) _ _
  unfold Mip.levelStep
  simp only [up_imageBarrier, up_emit]
  exact up_ite ..

/-- Announcements that say the same, where it is asked. -/
def Told (G : GraphSt) (n m : LayoutMap) : Prop :=
  ∀ (sepDS : Bool) (p : RunPass) (v : View) (c d : Ctx), c.nextImages = n → d.nextImages = m →
    getNextLayoutState sepDS G c p v = getNextLayoutState sepDS G d p v

theorem up_createAll {sepDS : Bool} {G : GraphSt} {p : RunPass} {index : Nat} {x : Upd} : ∀ (l : List Attachment) (o : RPass.PassObj) (c : Ctx),
    Told G c.nextImages x.nextImages →
    RPass.foldOpt (RPass.createOne sepDS G p index) (o, x.on c) l
      = (RPass.foldOpt (RPass.createOne sepDS G p index) (o, c) l).map fun y => (y.1, x.on y.2) := by
  intro l
  induction l with
  | nil => exact fun o c _ => rfl
  | cons a l ih =>
    intro o c ht
    unfold RPass.foldOpt
    have hn : ∀ v, (getCurrentLayoutState G c v).2.nextImages = c.nextImages := by
      intro v
      unfold getCurrentLayoutState
      simp only
      repeat' split
      all_goals rfl
    have h : RPass.createOne sepDS G p index (o, x.on c) a = (RPass.createOne sepDS G p index (o, c) a).map fun y => (y.1, x.on y.2) := by
      unfold RPass.createOne
      split
      · cases a.img.view index with
        | none => rfl
        | some v =>
          simp only [up_current]
          rw [← ht sepDS p v (getCurrentLayoutState G c v).2 (x.on (getCurrentLayoutState G c v).2) (hn v) rfl]
          split
          · rfl
          · rfl
      · rfl
    rw [h]
    cases h1 : RPass.createOne sepDS G p index (o, c) a with
    | none => rfl
    | some y =>
      refine ih y.1 y.2 ?_
      have : y.2.nextImages = c.nextImages := by
        unfold RPass.createOne at h1
        split at h1
        · split at h1
          · cases h1
          · simp only at h1
            split at h1
            · cases h1; exact hn _
            · cases h1; exact hn _
        · cases h1; rfl
      rw [this]; exact ht


theorem up_setAll (x : Upd) (f : RPass.Entry → LayoutState) (l : List RPass.Entry) : ∀ c : Ctx,
    l.foldl (fun (c : Ctx) (e : RPass.Entry) => c.setLayout e.view.image e.view.viewType e.view.range (f e)) (x.on c)
      = x.on (l.foldl (fun (c : Ctx) (e : RPass.Entry) => c.setLayout e.view.image e.view.viewType e.view.range (f e)) c) := by
  induction l with
  | nil => exact fun c => rfl
  | cons e l ih => intro c; rw [List.foldl_cons, List.foldl_cons, ← ih]; rfl

/-- The render pass object, made for other states. -/
def ob (a b : AccessState) (d : List RPass.Dep) (o : RPass.PassObj) : RPass.PassObj := { o with prev := a, next := b, deps := d }

theorem ob_area (a b : AccessState) (d : List RPass.Dep) (l : List Attachment) : ∀ o : RPass.PassObj,
    RPass.foldOpt RPass.areaOne (ob a b d o) l = (RPass.foldOpt RPass.areaOne o l).map (ob a b d) := by
  induction l with
  | nil => exact fun o => rfl
  | cons e l ih =>
    intro o
    have h : RPass.areaOne (ob a b d o) e = (RPass.areaOne o e).map (ob a b d) := by
      unfold RPass.areaOne
      split
      · cases e.img.view 0 with
        | none => rfl
        | some v => rfl
      · rfl
    unfold RPass.foldOpt
    rw [h]
    cases RPass.areaOne o e with
    | none => rfl
    | some o1 => exact ih o1

theorem up_recordPass {sepDS : Bool} {G : GraphSt} {w h : Nat} {p : RunPass} {draw : List Nat} {index : Nat} {x : Upd} {r : Rec}
    (ht : Told G r.ctx.nextImages x.nextImages) :
    (RPass.recordPass sepDS G w h p none draw index (up x r)).map (·.2)
      = ((RPass.recordPass sepDS G w h p none draw index r).map (·.2)).map (up x) := by
  have hi : RPass.initialise sepDS G w h p index none (x.on r.ctx)
      = (RPass.initialise sepDS G w h p index none r.ctx).map fun y =>
          (ob x.prev x.next (RPass.dependencies x.prev x.next) y.1, y.2.1, x.on y.2.2) := by
    unfold RPass.initialise
    simp only
    unfold RPass.create
    rw [up_createAll _ _ _ ht]
    cases RPass.foldOpt (RPass.createOne sepDS G p index) ({}, r.ctx) p.images with
    | none => rfl
    | some oc =>
      obtain ⟨o, c⟩ := oc
      simp only [Option.map_some, Option.bind_some]
      have hf : ∀ o, RPass.framebuffer p index (ob x.prev x.next (RPass.dependencies x.prev x.next) o)
          = (RPass.framebuffer p index o).map (ob x.prev x.next (RPass.dependencies x.prev x.next)) := by
        intro o
        unfold RPass.framebuffer
        cases (p.images.filter RPass.isTarget).mapM fun (a : Attachment) => a.img.view index with
        | none => rfl
        | some l => rfl
      have ha : RPass.area w h p { o with prev := (x.on r.ctx).prev, next := (x.on r.ctx).next, deps := RPass.dependencies (x.on r.ctx).prev (x.on r.ctx).next }
          = (RPass.area w h p { o with prev := r.ctx.prev, next := r.ctx.next, deps := RPass.dependencies r.ctx.prev r.ctx.next }).map
            (ob x.prev x.next (RPass.dependencies x.prev x.next)) :=
        ob_area x.prev x.next (RPass.dependencies x.prev x.next) p.images
          { o with prev := r.ctx.prev, next := r.ctx.next, deps := RPass.dependencies r.ctx.prev r.ctx.next, width := w, height := h, layers := 1 }
      rw [ha]
      cases RPass.area w h p { o with prev := r.ctx.prev, next := r.ctx.next, deps := RPass.dependencies r.ctx.prev r.ctx.next } with
      | none => rfl
      | some o1 =>
        simp only [Option.map_some, Option.bind_some, hf]
        cases RPass.framebuffer p index o1 with
        | none => rfl
        | some o2 => rfl
  unfold RPass.recordPass
  rw [show (up x r).ctx = x.on r.ctx from rfl, hi]
  cases RPass.initialise sepDS G w h p index none r.ctx with
  | none => rfl
  | some y =>
    obtain ⟨o, b, c⟩ := y
    simp only [Option.map_some]
    have hb : RPass.beginPass { up x r with ctx := x.on c } (ob x.prev x.next (RPass.dependencies x.prev x.next) o)
        = up x (RPass.beginPass { r with ctx := c } o) := by
      unfold RPass.beginPass
      simp only [show (ob x.prev x.next (RPass.dependencies x.prev x.next) o).entries = o.entries from rfl, up_setAll]
      rfl
    rw [hb]
    generalize RPass.beginPass { r with ctx := c } o = r1
    unfold RPass.endPass
    simp only [show (ob x.prev x.next (RPass.dependencies x.prev x.next) o).entries = o.entries from rfl]
    have hc : ∀ r : Rec, (Rec.emit { up x r with cmds := (up x r).cmds ++ draw.map .user }
        (.endPass (ob x.prev x.next (RPass.dependencies x.prev x.next) o).atts)).ctx = x.on r.ctx := fun _ => rfl
    rw [hc, up_setAll]
    rfl

theorem up_performAll (sepDS x cs) : ∀ r : Rec, performAll sepDS (up x r) cs = up x (performAll sepDS r cs) := by
  unfold performAll
  exact up_foldl _ x (fun r c => up_perform sepDS x r c) cs

theorem getD_up (x : Upd) (o : Option Rec) (r : Rec) : (o.map (up x)).getD (up x r) = up x (o.getD r) := by
  cases o <;> rfl

theorem body_up {sepDS : Bool} {G : GraphSt} {p : RunPass} (hp : Body sepDS G p) {index : Nat} {x : Upd} {r : Rec}
    (ht : Told G r.ctx.nextImages x.nextImages) : p.body index (up x r) = up x (p.body index r) := by
  cases hp with
  | draws w h draw hb => rw [hb, hb, up_recordPass ht, getD_up]
  | copies en size final h =>
    rw [h, h]
    unfold Xfer.imageCopy
    rw [up_copyPairs _ _ _ _ _ _ _ (Nat.le_refl _), getD_up]
  | blits so ss d ds f h =>
    rw [h, h, ← getD_up]
    congr 1
    unfold Xfer.imageBlit
    cases p.images.head? with
    | none => rfl
    | some a =>
      cases p.images.getLast? with
      | none => rfl
      | some b =>
        simp only
        cases a.img.view index with
        | none => rfl
        | some s =>
          cases b.img.view index with
          | none => rfl
          | some t => rfl
  | copiesBuffer o n h =>
    rw [h, h, ← getD_up]
    congr 1
    unfold Xfer.bufferCopy
    cases p.buffers.head? with
    | none => rfl
    | some a =>
      cases p.buffers.getLast? with
      | none => rfl
      | some b =>
        simp only
        cases a.buf.buffer index with
        | none => rfl
        | some s =>
          cases b.buf.buffer index with
          | none => rfl
          | some t => simp only [up_bufferBarrier, up_emit, Option.map_some]
  | uploads o n h =>
    rw [h, h, ← getD_up]
    congr 1
    unfold Xfer.bufferToImage
    cases p.images.getLast? with
    | none => rfl
    | some a =>
      cases p.buffers.head? with
      | none => rfl
      | some b =>
        simp only
        cases a.img.view index with
        | none => rfl
        | some s =>
          cases b.buf.buffer index with
          | none => rfl
          | some t => rfl
  | downloads o n h =>
    rw [h, h, ← getD_up]
    congr 1
    unfold Xfer.imageToBuffer
    cases p.images.getLast? with
    | none => rfl
    | some a =>
      cases p.buffers.head? with
      | none => rfl
      | some b =>
        simp only
        cases a.img.view index with
        | none => rfl
        | some s =>
          cases b.buf.buffer index with
          | none => rfl
          | some t => rfl
  | mipmaps en ty out h =>
    rw [h, h]
    cases p.images.head? with
    | none => rfl
    | some a =>
      simp only
      cases a.img.view index with
      | none => rfl
      | some v =>
        simp only [Mip.generateMipmaps]
        rw [← ht sepDS p v r.ctx (up x r).ctx rfl rfl]
        exact up_generate ..
  | uses calls h => rw [h, h, up_performAll]

theorem prepare_next {env : Env} {G : GraphSt} {p : RunPass} {index : Nat} {r r1 : Rec} (h : prepare env G p index r = some r1) :
    r1.ctx.nextImages = r.ctx.nextImages := by
  -- a recording that commutes with every announcement keeps the one it has
  have e : up ⟨r.ctx.nextImages, r.ctx.prev, r.ctx.curr, r.ctx.next⟩ r = r := rfl
  have := up_prepare env G p index ⟨r.ctx.nextImages, r.ctx.prev, r.ctx.curr, r.ctx.next⟩ r
  rw [e, h] at this
  have := congrArg (Option.map fun r : Rec => r.ctx.nextImages) this
  exact Option.some.inj this

/-- The frame, announced otherwise. -/
def upF (x : Upd) (f : Frame) : Frame := { f with recd := up x f.recd }

theorem told_refl {G : GraphSt} {n : LayoutMap} : Told G n n := by
  intro sepDS p v c d h1 h2
  unfold getNextLayoutState
  rw [h1, h2]

theorem told_none {G : GraphSt} : Told G (Images.toMap []) G.outputs.toMap := by
  intro sepDS p v c d h1 h2
  unfold getNextLayoutState
  rw [h1, h2]
  have : (Images.toMap []).getState v.image v.viewType v.range = ⟨Layout.undefined, ⟨0, Stage.bottomOfPipe⟩⟩ := rfl
  simp only [this, if_pos]
  by_cases h : (G.outputs.toMap.getState v.image v.viewType v.range).layout = Layout.undefined <;> simp [h]

theorem gather_filter (sepDS : Bool) (en : Nat → Bool) (ps : List RunPass) : ∀ cur res,
    gather sepDS en cur (ps.filter fun p => en p.id) res = gather sepDS en cur ps res := by
  induction ps with
  | nil => exact fun cur res => rfl
  | cons p ps ih =>
    intro cur res
    by_cases h : en p.id = true
    · rw [List.filter_cons_of_pos (by exact h)]
      simp only [gather, h, ih]
    · rw [List.filter_cons_of_neg (by exact h), ih]
      conv => rhs; unfold gather
      simp only [Bool.not_eq_true] at h
      simp only [h]
      split
      · rename_i hc
        cases ps with
        | nil => rfl
        | cons q qs => unfold gather; rw [if_pos hc]
      · rfl

theorem told_announce (env : Env) (G : GraphSt) (p : RunPass) (ps : List RunPass) (c d : Ctx) :
    Told G (announce env G p ps c).nextImages (announce env G p (ps.filter fun p => env.enabled p.id) d).nextImages := by
  unfold announce
  cases h1 : ps.isEmpty with
  | true =>
    have : ps = [] := List.isEmpty_iff.1 h1
    subst this
    exact told_refl
  | false =>
    cases h2 : (ps.filter fun p => env.enabled p.id).isEmpty with
    | true =>
      have h3 := List.isEmpty_iff.1 h2
      have : gather env.sepDS env.enabled (p.layouts env.sepDS) ps [] = [] := by
        rw [← gather_filter, h3]; rfl
      simp only [Bool.false_eq_true, if_false, if_true]
      show Told G (gather env.sepDS env.enabled (p.layouts env.sepDS) ps []).toMap G.outputs.toMap
      rw [this]
      exact told_none
    | false =>
      simp only [Bool.false_eq_true, if_false]
      show Told G (gather env.sepDS env.enabled (p.layouts env.sepDS) ps []).toMap
        (gather env.sepDS env.enabled (p.layouts env.sepDS) (ps.filter fun p => env.enabled p.id) []).toMap
      rw [gather_filter]
      exact told_refl

theorem up_register (p : RunPass) (x : Upd) (r : Rec) : registerAll p (up x r) = up x (registerAll p r) :=
  up_foldl _ x (fun _ _ => rfl) _ r

theorem into_up {env : Env} {G : GraphSt} {p : RunPass} (hp : Body env.sepDS G p) {index : Nat} {x : Upd} {f : Frame}
    (ht : Told G f.recd.ctx.nextImages x.nextImages) :
    recordInto env G p index (upF x f) = (recordInto env G p index f).map (upF x) := by
  unfold recordInto
  by_cases he : env.enabled p.id = true
  · simp only [he, if_true]
    by_cases hi : index < p.maxPassCount
    · simp only [hi, if_true]
      have h1 : (if (!(upF x f).initialised p.id index) = true then (upF x f).initialise p index else upF x f)
          = upF x (if (!f.initialised p.id index) = true then f.initialise p index else f) := by
        rw [show (upF x f).initialised = f.initialised from rfl]
        split <;> rfl
      have h2 : (if (!f.initialised p.id index) = true then f.initialise p index else f).recd = f.recd := by split <;> rfl
      rw [h1]
      generalize (if (!f.initialised p.id index) = true then f.initialise p index else f) = f1 at h2 ⊢
      rw [show (upF x f1).recd = up x f1.recd from rfl, up_prepare]
      cases h3 : prepare env G p index f1.recd with
      | none => rfl
      | some r1 =>
        simp only [Option.map_some]
        rw [body_up hp (by rw [prepare_next h3, h2]; exact ht), up_register]
        rfl
    · simp only [hi, if_false]
      rfl
  · simp only [he]
    show some _ = some _
    rw [show (upF x f).recd = up x f.recd from rfl, up_register]
    rfl

theorem loop_up {env : Env} {G : GraphSt} {index : Nat → Nat} (passes : List RunPass)
    (hb : ∀ p ∈ passes, env.enabled p.id = true → Body env.sepDS G p)
    (hn : ∀ p ∈ passes, env.enabled p.id = false → p.implicitActions = []) : ∀ (x : Upd) (f : Frame), ∃ y,
    recordLoop env G index (passes.filter fun p => env.enabled p.id) (upF x f) = (recordLoop env G index passes f).map (upF y) := by
  induction passes with
  | nil => exact fun x f => ⟨x, rfl⟩
  | cons p ps ih =>
    intro x f
    have ih := ih (fun q hq => hb q (List.mem_cons_of_mem _ hq)) (fun q hq => hn q (List.mem_cons_of_mem _ hq))
    cases he : env.enabled p.id with
    | false =>
      rw [List.filter_cons_of_neg (by simp [he])]
      obtain ⟨y, hy⟩ := ih x { f with recd := { f.recd with ctx := announce env G p ps f.recd.ctx } }
      refine ⟨y, ?_⟩
      have h1 : upF x { f with recd := { f.recd with ctx := announce env G p ps f.recd.ctx } } = upF x f := by
        unfold announce
        split <;> rfl
      rw [h1] at hy
      rw [hy]
      have hi : ∀ g, recordInto env G p (index p.id) g = some g := by
        intro g
        simp only [recordInto, he, registerAll, hn p (List.mem_cons_self ..) he, List.foldl_nil]
        rfl
      conv => rhs; unfold recordLoop
      simp only [hi]
    | true =>
      rw [List.filter_cons_of_pos (by exact he)]
      have hx : ∀ g : Frame, ∃ z : Upd, z.nextImages = (announce env G p (ps.filter fun p => env.enabled p.id) (upF x f).recd.ctx).nextImages
          ∧ ({ (upF x f) with recd := { (upF x f).recd with ctx := announce env G p (ps.filter fun p => env.enabled p.id) (upF x f).recd.ctx } } : Frame)
            = upF z { f with recd := { f.recd with ctx := announce env G p ps f.recd.ctx } } := by
        intro _
        generalize hc : announce env G p (ps.filter fun p => env.enabled p.id) (upF x f).recd.ctx = c
        refine ⟨⟨c.nextImages, c.prev, c.curr, c.next⟩, rfl, ?_⟩
        have : ∀ (next : List RunPass) (c : Ctx), ∃ z : Upd, announce env G p next c = z.on c := by
          intro next c
          unfold announce
          split
          · exact ⟨⟨_, _, _, _⟩, rfl⟩
          · exact ⟨⟨_, _, _, _⟩, rfl⟩
        obtain ⟨z1, h1⟩ := this (ps.filter fun p => env.enabled p.id) (upF x f).recd.ctx
        obtain ⟨z2, h2⟩ := this ps f.recd.ctx
        rw [← hc, h1, h2]
        rfl
      obtain ⟨z, hz, hz2⟩ := hx f
      unfold recordLoop
      simp only
      rw [hz2, into_up (hb p (List.mem_cons_self ..) he) (by rw [hz]; exact told_announce env G p ps f.recd.ctx (upF x f).recd.ctx)]
      cases recordInto env G p (index p.id) { f with recd := { f.recd with ctx := announce env G p ps f.recd.ctx } } with
      | none => exact ⟨z, rfl⟩
      | some f1 => exact ih z f1

/-- C89 (partial): passes that are disabled and have no substitute can be left out of the recording: the recording fails for both,
or for none, and what is recorded, tracked, pending and done is the same, as is what the graph remembers of images and buffers. -/
theorem disabled_left_out_partial {env : Env} {G : GraphSt} {deps : List Ctx} {index : Nat → Nat} {passes : List RunPass}
    {initialised : Nat → Nat → Bool} {log : List Event}
    (hb : ∀ p ∈ passes, env.enabled p.id = true → Body env.sepDS G p)
    (hn : ∀ p ∈ passes, env.enabled p.id = false → p.implicitActions = []) :
    match record env G deps index passes initialised log,
      record env G deps index (passes.filter fun p => env.enabled p.id) initialised log with
    | none, none => True
    | some (G1, f1), some (G2, f2) => SameFrame f1 f2 ∧ G1.inputs = G2.inputs ∧ G1.outputs = G2.outputs
        ∧ G1.final.images = G2.final.images ∧ G1.final.buffers = G2.final.buffers
    | _, _ => False := by
  have hx : ∃ x : Upd, firstAnnounce env.sepDS (passes.filter fun p => env.enabled p.id) (startCtx deps)
      = x.on (firstAnnounce env.sepDS passes (startCtx deps)) := by
    have : ∀ (ps : List RunPass) (c : Ctx), ∃ z : Upd, firstAnnounce env.sepDS ps c = z.on c := by
      intro ps c
      cases ps with
      | nil => exact ⟨⟨_, _, _, _⟩, rfl⟩
      | cons p ps => exact ⟨⟨_, _, _, _⟩, rfl⟩
    obtain ⟨z1, h1⟩ := this (passes.filter fun p => env.enabled p.id) (startCtx deps)
    obtain ⟨z2, h2⟩ := this passes (startCtx deps)
    exact ⟨z1, by rw [h1, h2]; rfl⟩
  obtain ⟨x, hx⟩ := hx
  unfold record
  simp only [hx]
  obtain ⟨y, hy⟩ := loop_up (index := index) passes hb hn x
    ⟨⟨firstAnnounce env.sepDS passes (startCtx deps), []⟩, initialised, log⟩
  rw [show (⟨⟨x.on (firstAnnounce env.sepDS passes (startCtx deps)), []⟩, initialised, log⟩ : Frame)
    = upF x ⟨⟨firstAnnounce env.sepDS passes (startCtx deps), []⟩, initialised, log⟩ from rfl, hy]
  cases recordLoop env G index passes ⟨⟨firstAnnounce env.sepDS passes (startCtx deps), []⟩, initialised, log⟩ with
  | none => trivial
  | some f => exact ⟨⟨rfl, rfl, rfl, rfl, rfl, rfl⟩, rfl, rfl, rfl, rfl⟩

/-! ### A concrete case, and where it fails -/

theorem drawing_body (sepDS : Bool) (G : GraphSt) (id n : Nat) (compute : Bool) (state : AccessState) (images buffers : List Attachment)
    (acts : List (View × Action)) (body : Nat → Rec → Rec) (draw : List Nat) :
    Body sepDS G (RPass.RunPass.drawing sepDS G ⟨id, n, compute, state, images, buffers, acts, body⟩ none draw) :=
  .draws 64 64 draw (fun _ _ => rfl)

theorem nothing_body (sepDS : Bool) (G : GraphSt) (id n : Nat) (compute : Bool) (state : AccessState) (images buffers : List Attachment)
    (acts : List (View × Action)) : Body sepDS G ⟨id, n, compute, state, images, buffers, acts, fun _ r => r⟩ :=
  .uses (fun _ => []) (fun _ _ => rfl)

/-- Two drawing passes and a pass that samples what they drew; the second is disabled. -/
example : (∀ p ∈ RPass.aPasses xG none, Body false xG p)
    ∧ (∀ p ∈ RPass.aPasses xG none, p.implicitActions = [])
    ∧ (RPass.aPasses xG none).map (·.id) = [1, 2, 3]
    ∧ ((record ⟨false, fun i => i != 2⟩ xG [] (fun _ => 0) (RPass.aPasses xG none) (fun _ _ => false) []).map (·.2.recd.cmds.length))
      = some 3 := by
  refine ⟨?_, ?_, rfl, by decide +kernel⟩
  · intro p hp
    simp only [RPass.aPasses, List.mem_cons, List.not_mem_nil, or_false] at hp
    rcases hp with rfl | rfl | rfl
    · exact drawing_body ..
    · exact drawing_body ..
    · exact nothing_body ..
  · intro p hp
    simp only [RPass.aPasses, List.mem_cons, List.not_mem_nil, or_false] at hp
    rcases hp with rfl | rfl | rfl <;> rfl

/-- A compute pass working on something else. -/
def dWork : RunPass := ⟨5, 1, true, ⟨Access.shaderRead, Stage.computeShader⟩, [], [], [], fun _ r => r⟩

/-- A compute pass writing the image drawn over. -/
def dWrite : RunPass := ⟨1, 1, true, ⟨Access.shaderRead, Stage.computeShader⟩, [ImageAdder.outputStorage.attach 1 0 [xView]], [], [], fun _ r => r⟩

/-- Work, write, draw over, sample; the drawing pass has the object `o`. -/
def dPasses (G : GraphSt) (o : Option RPass.PassObj) : List RunPass :=
  [dWork, dWrite, RPass.RunPass.drawing false G RPass.aBlend o [2], RPass.aSample]

/-- What is recorded in a second frame, after one with everything enabled in which the drawing pass made its render pass: with the
writing pass disabled, and with it left out. -/
def secondFrame : Option (List Cmd × List Cmd) :=
  (RPass.frameOf xG (dPasses xG none) fun _ => true).bind fun x =>
    (RPass.objectIn xG (dPasses xG none) (fun _ => true) 2 RPass.aBlend none).bind fun o =>
      (RPass.frameOf x.1 (dPasses x.1 (some o)) fun i => i != 1).bind fun y =>
        (RPass.frameOf x.1 ((dPasses x.1 (some o)).filter fun p => p.id != 1) fun i => i != 1).map fun z =>
          (y.2.recd.cmds, z.2.recd.cmds)

/-- C89 fails for a drawing pass that already has a render pass: whether it makes another one depends on the state of the disabled
pass. Here it makes another one with the disabled pass there, and uses the one it has, which doesn't fit, without. -/
theorem disabled_seen_by_reuse : ∃ a b, secondFrame = some (a, b) ∧ a ≠ b := by
  have h : (secondFrame.map fun x => decide (x.1 = x.2)) = some false := by decide +kernel
  obtain ⟨x, e, h⟩ := Option.map_eq_some_iff.1 h
  exact ⟨x.1, x.2, e, by simpa using h⟩

/-- C89 fails if the callbacks read the previous state from the context: it is not the one of the pass recorded before. -/
theorem disabled_seen_by_callback : ∃ (ps : List RunPass) (en : Nat → Bool),
    (∀ p ∈ ps, p.implicitActions = [])
    ∧ (RPass.frameOf xG ps en).map (·.2.recd.cmds) ≠ (RPass.frameOf xG (ps.filter fun p => en p.id) en).map (·.2.recd.cmds) := by
  refine ⟨[dWork, dWrite, { RPass.aSample with images := [], body := fun _ r => r.emit (.user r.ctx.prev.stage) }], fun i => i != 1, ?_, ?_⟩
  · intro p hp
    simp only [List.mem_cons, List.not_mem_nil, or_false] at hp
    rcases hp with rfl | rfl | rfl <;> rfl
  · decide +kernel

end Verif.Skip
