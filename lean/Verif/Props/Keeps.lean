import Verif.Props.Library
import Verif.Props.Clears
/-
C69: images in use are not discarded.
-/
namespace Verif.Run
open Verif.Rec Verif.Att Verif.Gpu

/-! ### Specification -/

/-- One of the passes, if enabled, has a render target over the byte that doesn't both load and store it: the target isn't an
input, or declares another load or store operation for the aspect, or is of a format without the aspect. -/
def MayLose (en : Nat → Bool) (passes : List RunPass) (c : Cell) : Prop :=
  ∃ q ∈ passes, en q.id = true ∧ ∃ a ∈ q.images, RPass.isTarget a = true ∧ ∃ v ∈ a.img.views, c.InView v
    ∧ (a.isInput = false ∨ RPass.loadOpFor a c.aspect ≠ LoadOp.load ∨ RPass.storeOpFor a c.aspect ≠ StoreOp.store
      ∨ (c.aspect = 2 ∧ (aspects v.format).testBit 2 = false))

/-- From `r` on, `r'` only adds commands. Among those, no barrier discards a byte of a subresource whose layout `r` tracks, and
no other command does unless the byte is one that may be lost. -/
def Preserves (lost : Cell → Prop) (r r' : Rec) : Prop :=
  ∃ cs, r'.cmds = r.cmds ++ cs ∧ ∀ k ∈ cs, ∀ c : Cell, r.ctx.images.at c.image c.layer c.level ≠ none →
    Discards k c → ¬ IsBarrier k ∧ lost c

/-- Pending substitutes concern no 3D view. -/
def FlatPending (r : Rec) : Prop := ∀ t ∈ r.ctx.implicit, ∀ w ∈ touched t.action, w.viewType ≠ .d3

/-! ### Lemmas -/

variable {L : Cell → Prop}

/-- The invariant is kept, and so are the contents of what is tracked. -/
def Keeps (L : Cell → Prop) (r r' : Rec) : Prop :=
  Defined r.ctx → Defined r'.ctx ∧ Mono r r' ∧ Preserves L r r'

theorem preserves_trans {a b c : Rec} (h1 : Preserves L a b) (hm : Mono a b) (h2 : Preserves L b c) : Preserves L a c := by
  obtain ⟨cs, e1, p1⟩ := h1
  obtain ⟨ds, e2, p2⟩ := h2
  refine ⟨cs ++ ds, by rw [e2, e1, List.append_assoc], ?_⟩
  intro k hk x hx
  rcases List.mem_append.1 hk with hk | hk
  · exact p1 k hk x hx
  · exact p2 k hk x fun h => hx (hm _ _ _ h)

theorem keeps_refl (r : Rec) : Keeps L r r := fun h => ⟨h, mono_refl r, [], by simp, by simp⟩

theorem keeps_trans (a b c : Rec) (h1 : Keeps L a b) (h2 : Keeps L b c) : Keeps L a c := by
  intro h
  obtain ⟨d1, m1, p1⟩ := h1 h
  obtain ⟨d2, m2, p2⟩ := h2 d1
  exact ⟨d2, mono_trans _ _ _ m1 m2, preserves_trans p1 m1 p2⟩

theorem defined_set {c : Ctx} (h : Defined c) (img : Image) (vt : ViewType) (r : Range) {s : LayoutState}
    (hs : s.layout ≠ Layout.undefined) : Defined (c.setLayout img vt r s) := by
  intro i l m t ht
  simp only [Ctx.setLayout, LayoutMap.at_setState] at ht
  split at ht
  · cases ht; exact hs
  · exact h i l m t ht

theorem mono_set (r : Rec) (img : Image) (vt : ViewType) (rg : Range) (s : LayoutState) (cs : List Cmd) :
    Mono r ⟨r.ctx.setLayout img vt rg s, cs⟩ := by
  intro i l m h
  simp only [Ctx.setLayout, LayoutMap.at_setState] at h
  split at h
  · simp at h
  · exact h

theorem keeps_imageBarrier (env : Env) (r : Rec) (img : Image) (vt : ViewType) (sub : Range) (i : Nat) (wn : LayoutState)
    (f : Bool) (hv : vt ≠ .d3) (hw : wn.layout ≠ Layout.undefined) : Keeps L r (r.imageBarrier env img vt sub i wn f) := by
  intro h
  obtain ⟨src, hsrc, ⟨-, e⟩ | ⟨-, e⟩⟩ := imageBarrier_cases env r img vt sub i wn f <;> rw [e]
  · refine ⟨defined_set h _ _ _ hw, mono_set r _ _ _ _ _, _, rfl, ?_⟩
    intro k hk c hc
    simp only [List.mem_singleton] at hk
    subst hk
    rintro ⟨h1, h2, h3⟩
    exfalso
    have hk : (r.ctx.images.getState img vt (adaptRange env.sepDS img.format sub)).layout ≠ Layout.undefined := by
      rw [getState_known_iff, virtual_plain _ _ hv]
      refine ⟨⟨c.layer, c.level, h3.2, ?_⟩, fun l k t _ ht => h _ _ _ _ ht⟩
      rw [← h2]
      exact Option.isSome_iff_ne_none.2 hc
    rw [if_neg hk] at hsrc
    rw [hsrc] at h1
    exact hk h1
  · exact ⟨h, mono_refl r, [], by simp, by simp⟩

theorem keeps_emit (r : Rec) (c : Cmd) (hc : ∀ x, ¬ Discards c x) : Keeps L r (r.emit c) := by
  refine fun h => ⟨h, fun _ _ _ h => h, [c], rfl, ?_⟩
  intro k hk x _ hd
  simp only [List.mem_singleton] at hk
  subst hk
  exact absurd hd (hc x)

theorem keeps_ctx (r : Rec) (c : Ctx) (hc : c.images = r.ctx.images) : Keeps L r { r with ctx := c } := by
  refine fun h => ⟨?_, ?_, [], by simp, by simp⟩
  · intro i l m t ht
    rw [show ({ r with ctx := c } : Rec).ctx.images = r.ctx.images from hc] at ht
    exact h i l m t ht
  · intro i l m hx
    rw [show ({ r with ctx := c } : Rec).ctx.images = r.ctx.images from hc] at hx
    exact hx

theorem keeps_bufferBarrier (r : Rec) (b o s : Nat) (i w : AccessState) (f : Bool) : Keeps L r (r.bufferBarrier b o s i w f) := by
  unfold Rec.bufferBarrier
  simp only
  generalize (if (r.ctx.getAccess b).stage = Stage.bottomOfPipe then i else r.ctx.getAccess b) = src
  split
  · exact keeps_trans _ _ _ (keeps_emit r (.bufferBarrier b o s src w) fun _ h => h) (keeps_ctx _ _ rfl)
  · exact keeps_refl r

theorem keeps_current (G : GraphSt) (r : Rec) (v : View) : Keeps L r { r with ctx := (getCurrentLayoutState G r.ctx v).2 } := by
  refine fun h => ⟨?_, mono_current G r v, [], by simp, by simp⟩
  show Defined (getCurrentLayoutState G r.ctx v).2
  unfold getCurrentLayoutState
  simp only
  (repeat' split) <;> first | exact h | (apply defined_set h; assumption)

theorem keeps_runImplicit (env : Env) (r : Rec) (v : View) (hp : FlatPending r) :
    Keeps L r (r.runImplicit env v) ∧ FlatPending (r.runImplicit env v) := by
  have := runImplicit_lift env (Keeps L) (fun w => w.viewType ≠ .d3) (fun _ => True) keeps_refl keeps_trans
    (fun r w i wn f hw hn => keeps_imageBarrier env r _ _ _ i wn f hw hn) (fun r c _ h => keeps_emit r c h) (fun r l => keeps_ctx r _ rfl)
    _ r v rfl trivial (fun t ht _ _ _ w hw => ⟨hp t ht w hw, trivial⟩)
  exact ⟨this.1, fun t ht => hp t (this.2 t ht)⟩

/-- Both relations together. -/
def Steady (L : Cell → Prop) (r r' : Rec) : Prop := Keeps L r r' ∧ (FlatPending r → FlatPending r')

theorem steady_refl (r : Rec) : Steady L r r := ⟨keeps_refl r, id⟩
theorem steady_trans {a b c : Rec} (h1 : Steady L a b) (h2 : Steady L b c) : Steady L a c :=
  ⟨keeps_trans _ _ _ h1.1 h2.1, fun h => h2.2 (h1.2 h)⟩

theorem steady_weaken {L L' : Cell → Prop} (h : ∀ c, L c → L' c) {r r' : Rec} (s : Steady L r r') : Steady L' r r' := by
  refine ⟨fun hd => ?_, s.2⟩
  obtain ⟨h1, h2, cs, h3, h4⟩ := s.1 hd
  exact ⟨h1, h2, cs, h3, fun k hk c hc hx => ⟨(h4 k hk c hc hx).1, h c (h4 k hk c hc hx).2⟩⟩

theorem steady_imageBarrier (env : Env) (r : Rec) (img : Image) (vt : ViewType) (sub : Range) (i : Nat) (wn : LayoutState)
    (f : Bool) (hv : vt ≠ .d3) (hw : wn.layout ≠ Layout.undefined) : Steady L r (r.imageBarrier env img vt sub i wn f) := by
  refine ⟨keeps_imageBarrier env r img vt sub i wn f hv hw, ?_⟩
  unfold FlatPending
  rw [Lib.imageBarrier_implicit]
  exact id

theorem steady_barrier (env : Env) (r : Rec) (v : View) (i : Nat) (wn : LayoutState) (f : Bool) (hv : v.viewType ≠ .d3)
    (hw : wn.layout ≠ Layout.undefined) : Steady L r (r.viewBarrier env v i wn f) := steady_imageBarrier env r _ _ _ i wn f hv hw

theorem steady_emit (r : Rec) (c : Cmd) (hc : ∀ x, ¬ Discards c x) : Steady L r (r.emit c) := ⟨keeps_emit r c hc, id⟩

theorem steady_ctx (r : Rec) (c : Ctx) (hc : c.images = r.ctx.images) (hi : c.implicit = r.ctx.implicit) :
    Steady L r { r with ctx := c } :=
  ⟨keeps_ctx r c hc, fun h t ht => h t (by rw [← hi]; exact ht)⟩

theorem steady_current (G : GraphSt) (r : Rec) (v : View) : Steady L r { r with ctx := (getCurrentLayoutState G r.ctx v).2 } :=
  ⟨keeps_current G r v, fun h t ht => h t (by rw [← (RPass.current_other G r.ctx v).1]; exact ht)⟩

theorem steady_bufferBarrier (r : Rec) (b o s : Nat) (i w : AccessState) (f : Bool) : Steady L r (r.bufferBarrier b o s i w f) := by
  refine ⟨keeps_bufferBarrier r b o s i w f, ?_⟩
  have : (r.bufferBarrier b o s i w f).ctx.implicit = r.ctx.implicit := by
    unfold Rec.bufferBarrier
    simp only
    generalize (if (r.ctx.getAccess b).stage = Stage.bottomOfPipe then i else r.ctx.getAccess b) = src
    split <;> rfl
  unfold FlatPending
  rw [this]
  exact id

theorem steady_final (env : Env) (r : Rec) (v : View) (l : Nat) (hv : v.viewType ≠ .d3) : Steady L r (r.finalBarrier env v l) := by
  unfold Rec.finalBarrier
  split
  · rename_i hf
    exact steady_barrier env r v _ _ _ hv (by simpa [makeLayoutState] using hf)
  · exact steady_refl r

theorem steady_recordImage {env : Env} {G : GraphSt} {index : Nat} {a : Attachment} {r r' : Rec}
    (hv : ∀ v ∈ a.img.views, v.viewType ≠ .d3)
    (hl : moved a = true → a.getImageLayout env.sepDS ≠ Layout.undefined) (hp : FlatPending r)
    (e : recordImage env G index r a = some r') : Steady L r r' := by
  unfold recordImage at e
  cases hvw : a.img.view index with
  | none => rw [hvw] at e; simp at e
  | some v =>
    rw [hvw] at e
    simp only at e
    have h3 := hv v (view_mem hvw)
    have s1 : Steady L r (r.runImplicit env v) := ⟨(keeps_runImplicit env r v hp).1, fun h => (keeps_runImplicit (L := L) env r v h).2⟩
    generalize r.runImplicit env v = r1 at e s1
    split at e
    · rename_i hm
      have hl := hl hm
      have s2 : Steady L r1 { r1 with ctx := (if (!a.isInput) = true then (makeLayoutState Layout.undefined, r1.ctx)
          else getCurrentLayoutState G r1.ctx v).2 } := by
        split
        · exact steady_refl r1
        · exact steady_current G r1 v
      generalize (if (!a.isInput) = true then (makeLayoutState Layout.undefined, r1.ctx)
          else getCurrentLayoutState G r1.ctx v) = cur at e s2
      generalize ({ r1 with ctx := cur.2 } : Rec) = r2 at e s2
      split at e
      · simp only [Option.some.injEq] at e
        subst e
        exact steady_trans s1 (steady_trans s2 (steady_trans (steady_barrier env r2 v _ clearState false h3 (by decide))
          (steady_trans (steady_emit _ _ (by intro _ h; exact h)) (steady_barrier env _ v _ _ false h3 hl))))
      · simp only [Option.some.injEq] at e
        subst e
        exact steady_trans s1 (steady_trans s2 (steady_barrier env r2 v _ _ false h3 hl))
    · simp only [Option.some.injEq] at e
      subst e
      exact s1

theorem steady_foldOpt {α : Type} {f : Rec → α → Option Rec} : ∀ (as : List α),
    (∀ a ∈ as, ∀ r r', FlatPending r → f r a = some r' → Steady L r r') → ∀ {r r' : Rec}, FlatPending r →
    foldOpt f r as = some r' → Steady L r r'
  | [], _, r, r', _, e => by
    simp only [foldOpt, Option.some.injEq] at e
    subst e
    exact steady_refl r
  | a :: as, h, r, r', hp, e => by
    unfold foldOpt at e
    cases e1 : f r a with
    | none => rw [e1] at e; simp at e
    | some r1 =>
      rw [e1] at e
      have s1 := h a (by simp) r r1 hp e1
      exact steady_trans s1 (steady_foldOpt as (fun b hb => h b (by simp [hb])) (s1.2 hp) e)

theorem steady_recordBuffer {compute : Bool} {index : Nat} {a : Attachment} {r r' : Rec}
    (e : recordBuffer compute index r a = some r') : Steady L r r' := by
  unfold recordBuffer at e
  split at e
  · split at e
    · simp at e
    · simp only at e
      split at e
      · simp only [Option.some.injEq] at e
        subst e
        exact steady_trans (steady_bufferBarrier _ _ _ _ _ _ _) (steady_trans (steady_emit _ _ (by intro _ h; exact h))
          (steady_bufferBarrier _ _ _ _ _ _ _))
      · simp only [Option.some.injEq] at e
        subst e
        exact steady_bufferBarrier _ _ _ _ _ _ _
  · simp only [Option.some.injEq] at e
    subst e
    exact steady_refl r

theorem steady_prepare {env : Env} {G : GraphSt} {p : RunPass} {index : Nat} {r r' : Rec}
    (hv : ∀ a ∈ p.images, ∀ v ∈ a.img.views, v.viewType ≠ .d3)
    (hl : ∀ a ∈ p.images, moved a = true → a.getImageLayout env.sepDS ≠ Layout.undefined) (hp : FlatPending r)
    (e : prepare env G p index r = some r') : Steady L r r' := by
  unfold prepare at e
  cases e1 : foldOpt (recordImage env G index) r p.images with
  | none => rw [e1] at e; simp at e
  | some r1 =>
    rw [e1] at e
    have s1 := steady_foldOpt (L := L) p.images (fun a ha r r' hp e => steady_recordImage (hv a ha) (hl a ha) hp e) hp e1
    exact steady_trans s1 (steady_foldOpt p.buffers (fun a ha r r' _ e => steady_recordBuffer e) (s1.2 hp) e)

theorem steady_registerAll {p : RunPass} (ha : ∀ va ∈ p.implicitActions, ∀ w ∈ touched va.2, w.viewType ≠ .d3) (r : Rec) :
    Steady L r (registerAll p r) := by
  have : ∀ (l : List (View × Action)), (∀ va ∈ l, ∀ w ∈ touched va.2, w.viewType ≠ .d3) → ∀ r : Rec,
      Steady L r (l.foldl (fun r va => r.register ⟨p.id, va.1, va.2⟩) r) := by
    intro l
    induction l with
    | nil => intro _ r; exact steady_refl r
    | cons va l ih =>
      intro h r
      refine steady_trans (b := r.register ⟨p.id, va.1, va.2⟩) ⟨keeps_ctx r _ rfl, ?_⟩ (ih (fun x hx => h x (by simp [hx])) _)
      intro hp t ht
      simp only [Rec.register, List.mem_append, List.mem_singleton] at ht
      rcases ht with ht | rfl
      · exact hp t ht
      · exact h va (by simp)
  exact this _ ha r

theorem enters_enabled {env : Env} {G : GraphSt} {index : Nat → Nat} {q : RunPass} {r : Rec} :
    ∀ {ps : List RunPass} {f : Frame}, Enters env G index ps f q r → env.enabled q.id = true
  | [], _, h => absurd h (by simp [Enters])
  | p :: next, f, h => by
    rcases h with ⟨rfl, h, -⟩ | ⟨f', -, h⟩
    · exact h
    · exact enters_enabled h

/-- What is asked of the passes: no 3D view, layouts declared, bodies that keep what is tracked but what their own targets may
lose. -/
structure Gentle (env : Env) (G : GraphSt) (index : Nat → Nat) (ps : List RunPass) (f : Frame) : Prop where
  views : ∀ p ∈ ps, ∀ a ∈ p.images, ∀ v ∈ a.img.views, v.viewType ≠ .d3
  layouts : ∀ p ∈ ps, ∀ a ∈ p.images, moved a = true → a.getImageLayout env.sepDS ≠ Layout.undefined
  actions : ∀ p ∈ ps, ∀ va ∈ p.implicitActions, ∀ w ∈ touched va.2, w.viewType ≠ .d3
  bodies : ∀ p r, Enters env G index ps f p r → FlatPending r →
    Steady (MayLose env.enabled [p]) r (p.body (index p.id) r)

theorem steady_recordInto {env : Env} {G : GraphSt} {p : RunPass} {index : Nat} {f f' : Frame}
    (hv : ∀ a ∈ p.images, ∀ v ∈ a.img.views, v.viewType ≠ .d3)
    (hl : ∀ a ∈ p.images, moved a = true → a.getImageLayout env.sepDS ≠ Layout.undefined)
    (ha : ∀ va ∈ p.implicitActions, ∀ w ∈ touched va.2, w.viewType ≠ .d3)
    (hb : env.enabled p.id = true → ∀ r, prepare env G p index f.recd = some r → FlatPending r → Steady L r (p.body index r))
    (hp : FlatPending f.recd) (e : recordInto env G p index f = some f') :
    Steady L f.recd f'.recd
    ∧ (env.enabled p.id = true → ∀ r, prepare env G p index f.recd = some r → Steady L r (p.body index r)
      ∧ ∀ L', Steady L' (p.body index r) f'.recd) := by
  unfold recordInto at e
  split at e
  · split at e
    · simp only at e
      have hr : (if (!f.initialised p.id index) = true then f.initialise p index else f).recd = f.recd := by
        split <;> rfl
      rw [hr] at e
      cases e1 : prepare env G p index f.recd with
      | none => rw [e1] at e; simp at e
      | some r =>
        rw [e1] at e
        simp only [Option.some.injEq] at e
        subst e
        have s1 := steady_prepare (L := L) hv hl hp e1
        have s2 := hb (by assumption) r e1 (s1.2 hp)
        have s3 := fun L => steady_registerAll (L := L) ha (p.body index r)
        refine ⟨steady_trans s1 (steady_trans s2 (s3 L)), fun _ r' er => ?_⟩
        cases er
        exact ⟨s2, s3⟩
    · simp at e
  · rename_i hen
    simp only [Option.some.injEq] at e
    subst e
    exact ⟨steady_registerAll ha _, fun h => absurd h hen⟩

theorem steady_loop {env : Env} {G : GraphSt} {index : Nat → Nat} : ∀ (ps : List RunPass) (f : Frame),
    Gentle env G index ps f → FlatPending f.recd → ∀ f', recordLoop env G index ps f = some f' →
    Steady (MayLose env.enabled ps) f.recd f'.recd
    ∧ ∀ k r, RPass.enteredRec env G index ps f k = some r → ∃ p, ps[k]? = some p ∧ Enters env G index ps f p r
      ∧ Steady (MayLose env.enabled (ps.take k)) f.recd r
      ∧ Steady (MayLose env.enabled [p]) r (p.body (index p.id) r)
      ∧ Steady (MayLose env.enabled (ps.drop (k + 1))) (p.body (index p.id) r) f'.recd := by
  intro ps
  induction ps with
  | nil =>
    intro f _ _ f' e
    simp only [recordLoop, Option.some.injEq] at e
    subst e
    exact ⟨steady_refl _, fun k r he => absurd he (by simp [RPass.enteredRec])⟩
  | cons p next ih =>
    intro f hg hp f' e
    unfold recordLoop at e
    simp only at e
    have s0 : ∀ L, Steady L f.recd { f.recd with ctx := announce env G p next f.recd.ctx } :=
      fun L => steady_ctx _ _ (announce_keeps env G p next _).1 (announce_keeps env G p next _).2
    have wk : ∀ c, MayLose env.enabled [p] c → ∀ qs, MayLose env.enabled (p :: qs) c := by
      rintro c ⟨q, hq, h⟩ qs
      rw [List.mem_singleton] at hq
      subst hq
      exact ⟨q, by simp, h⟩
    have wn : ∀ qs c, MayLose env.enabled qs c → MayLose env.enabled (p :: qs) c := by
      rintro qs c ⟨q, hq, h⟩
      exact ⟨q, by simp [hq], h⟩
    split at e
    · simp at e
    · rename_i f1 e1
      obtain ⟨s1, s2⟩ := steady_recordInto (L := MayLose env.enabled [p]) (f := { f with recd := _ }) (hg.views p (by simp))
        (hg.layouts p (by simp)) (hg.actions p (by simp)) (fun hen r er hr => hg.bodies p r (Or.inl ⟨rfl, hen, er⟩) hr)
        ((s0 (fun _ => False)).2 hp) e1
      have hp1 := s1.2 ((s0 (fun _ => False)).2 hp)
      have hg' : Gentle env G index next f1 :=
        ⟨fun q hq => hg.views q (by simp [hq]), fun q hq => hg.layouts q (by simp [hq]), fun q hq => hg.actions q (by simp [hq]),
          fun q r he => hg.bodies q r (Or.inr ⟨f1, e1, he⟩)⟩
      obtain ⟨t1, t2⟩ := ih f1 hg' hp1 f' e
      refine ⟨steady_trans (s0 _) (steady_trans (steady_weaken (fun c h => wk c h next) s1) (steady_weaken (wn next) t1)), ?_⟩
      intro k r hk
      unfold RPass.enteredRec at hk
      simp only at hk
      cases k with
      | zero =>
        simp only at hk
        split at hk
        · rename_i hen
          have sp := steady_prepare (L := MayLose env.enabled (List.take 0 (p :: next))) (hg.views p (by simp))
            (hg.layouts p (by simp)) ((s0 (fun _ => False)).2 hp) hk
          obtain ⟨u1, u2⟩ := s2 hen r hk
          exact ⟨p, rfl, Or.inl ⟨rfl, hen, hk⟩, steady_trans (s0 _) sp, u1, steady_trans (u2 _) t1⟩
        · simp at hk
      | succ k =>
        simp only at hk
        rw [e1, Option.bind_some] at hk
        obtain ⟨q, v0, v1, v2, v3, v4⟩ := t2 k r hk
        refine ⟨q, by simpa using v0, Or.inr ⟨f1, e1, v1⟩, ?_, v3, v4⟩
        exact steady_trans (s0 _) (steady_trans (steady_weaken (fun c h => wk c h (next.take k)) s1) (steady_weaken (wn (next.take k)) v2))

theorem steady_performAll (sepDS : Bool) {V : View → Prop} {passes : List RunPass} (hV : ∀ v, V v → v.viewType ≠ .d3) :
    ∀ (calls : List Call), (∀ c ∈ calls, BodyCall V passes c) → ∀ r : Rec, FlatPending r →
      Steady L r (performAll sepDS r calls)
  | [], _, r, _ => steady_refl r
  | c :: cs, hc, r, hp => by
    have h1 : Steady L r (perform sepDS r c) := by
      have hcc := hc c (by simp)
      cases c with
      | barrier v i w f => exact steady_barrier _ r v i w f (hV v hcc.1) hcc.2.1
      | buffer q => exact steady_bufferBarrier _ _ _ _ _ _ _
      | register t =>
        refine ⟨keeps_ctx r _ rfl, ?_⟩
        intro hp u hu
        simp only [perform, Rec.register, List.mem_append, List.mem_singleton] at hu
        rcases hu with hu | rfl
        · exact hp u hu
        · exact fun w hw => hV w (touched_in hcc.2.1 w hw)
      | use v en => exact ⟨(keeps_runImplicit _ r v hp).1, fun h => (keeps_runImplicit (L := L) _ r v h).2⟩
      | work k => exact steady_emit r (.work k) fun _ h => h
    exact steady_trans h1 (steady_performAll sepDS hV cs (fun x hx => hc x (by simp [hx])) _ (h1.2 hp))

theorem steady_foldl {α : Type} (f : Rec → α → Rec) (h : ∀ r a, Steady L r (f r a)) : ∀ (l : List α) (r : Rec),
    Steady L r (l.foldl f r)
  | [], r => steady_refl r
  | a :: l, r => steady_trans (h r a) (steady_foldl f h l (f r a))

theorem steady_generate (env : Env) (G : GraphSt) (v : View) {ty : ViewType} (ht : ty ≠ .d3) {next : LayoutState}
    (hn : next.layout ≠ Layout.undefined) (r : Rec) : Steady L r (Mip.generate env G v ty next r) := by
  unfold Mip.generate
  refine steady_foldl _ (fun r layer => ?_) _ _
  unfold Mip.layerStep
  simp only
  have s1 := steady_current (L := L) G r { v with range := Mip.sub (getAspectMask v.image.format) layer 0 }
  generalize getCurrentLayoutState G r.ctx { v with range := Mip.sub (getAspectMask v.image.format) layer 0 } = cur at s1 ⊢
  refine steady_trans s1 (steady_trans (steady_imageBarrier env _ v.image ty (Mip.sub (getAspectMask v.image.format) layer 0)
    cur.1.layout Mip.srcState false ht (by decide)) ?_)
  refine steady_foldl _ (fun r l => ?_) _ _
  unfold Mip.levelStep
  simp only
  generalize getAspectMask v.image.format = asp
  have s1 := steady_imageBarrier (L := L) env r v.image ty (Mip.sub asp layer l) Layout.undefined
    (makeLayoutState Layout.transferDst) false ht (by decide)
  generalize r.imageBarrier env v.image ty (Mip.sub asp layer l) Layout.undefined (makeLayoutState Layout.transferDst) false
    = r1 at s1 ⊢
  have s2 := steady_emit (L := L) r1 (.blitImage v.image.id Layout.transferSrc (Mip.sub asp layer (l - 1)) (Mip.corners v.image (l - 1))
    v.image.id Layout.transferDst (Mip.sub asp layer l) (Mip.corners v.image l) Mip.filterLinear) (by intro _ h; exact h)
  generalize r1.emit _ = r2 at s2 ⊢
  have s3 := steady_imageBarrier (L := L) env r2 v.image ty (Mip.sub asp layer (l - 1)) Layout.transferSrc next false ht hn
  refine steady_trans s1 (steady_trans s2 (steady_trans s3 ?_))
  split
  · exact steady_imageBarrier env _ _ _ _ _ _ _ ht hn
  · exact steady_imageBarrier env _ _ _ _ _ _ _ ht (by decide)

theorem steady_copyPairs (env : Env) (size : Xfer.Extent) (final index : Nat) : ∀ (as : List Attachment),
    (∀ a ∈ as, ∀ v ∈ a.img.views, v.viewType ≠ .d3) → ∀ {r r' : Rec}, Xfer.copyPairs env size final index as r = some r' →
    Steady L r r'
  | [], _, r, r', e => by
    simp only [Xfer.copyPairs, Option.some.injEq] at e
    subst e
    exact steady_refl r
  | [_], _, r, r', e => by simp [Xfer.copyPairs] at e
  | s :: t :: rest, h, r, r', e => by
    unfold Xfer.copyPairs at e
    split at e
    · simp at e
    · rename_i r1 e1
      unfold Xfer.copyPair at e1
      split at e1
      · rename_i sv tv hs ht
        simp only [Option.some.injEq] at e1
        subst e1
        exact steady_trans (steady_trans (steady_emit r _ (by intro _ h; exact h))
          (steady_final env _ tv final (h t (by simp) tv (view_mem ht))))
          (steady_copyPairs env size final index rest (fun a ha => h a (by simp [ha])) e)
      · simp at e1

theorem steady_transfers {sepDS : Bool} {p : RunPass} (hv : ∀ a ∈ p.images, ∀ v ∈ a.img.views, v.viewType ≠ .d3)
    (hX : Xfer.Transfers sepDS p) (index : Nat) (r : Rec) : Steady L r (p.body index r) := by
  cases hX with
  | imageCopy en size final body declared =>
    rw [body]
    cases e : Xfer.imageCopy ⟨sepDS, en⟩ p size final index r with
    | none => exact steady_refl r
    | some r' => exact steady_copyPairs ⟨sepDS, en⟩ size final index p.images hv e
  | imageBlit so ss dof ds fi body d1 d2 =>
    rw [body]
    unfold Xfer.imageBlit
    split
    · split
      · exact steady_emit r _ (by intro _ h; exact h)
      · exact steady_refl r
    · exact steady_refl r
  | bufferCopy co cr body =>
    rw [body]
    unfold Xfer.bufferCopy
    split
    · split
      · exact steady_trans (steady_bufferBarrier _ _ _ _ _ _ _) (steady_trans (steady_bufferBarrier _ _ _ _ _ _ _)
          (steady_trans (steady_emit _ _ (by intro _ h; exact h)) (steady_trans (steady_bufferBarrier _ _ _ _ _ _ _)
            (steady_bufferBarrier _ _ _ _ _ _ _))))
      · exact steady_refl r
    · exact steady_refl r
  | bufferToImage o s body d =>
    rw [body]
    unfold Xfer.bufferToImage
    split
    · split
      · exact steady_emit r _ (by intro _ h; exact h)
      · exact steady_refl r
    · exact steady_refl r
  | imageToBuffer o s body d =>
    rw [body]
    unfold Xfer.imageToBuffer
    split
    · split
      · exact steady_emit r _ (by intro _ h; exact h)
      · exact steady_refl r
    · exact steady_refl r

/-- A subresource after setting the states of several views. -/
theorem setAll_cases (f : RPass.Entry → LayoutState) : ∀ (es : List RPass.Entry) (c : Ctx) (i l m : Nat),
    let c' := es.foldl (fun (c : Ctx) (e : RPass.Entry) => c.setLayout e.view.image e.view.viewType e.view.range (f e)) c
    (∃ e ∈ es, i = e.view.image.id ∧ (getVirtualRange e.view.image e.view.viewType e.view.range).Has l m
      ∧ c'.images.at i l m = some (f e))
    ∨ ((∀ e ∈ es, ¬ (i = e.view.image.id ∧ (getVirtualRange e.view.image e.view.viewType e.view.range).Has l m))
      ∧ c'.images.at i l m = c.images.at i l m) := by
  intro es
  induction es with
  | nil => intro c i l m; exact Or.inr ⟨by simp, rfl⟩
  | cons e es ih =>
    intro c i l m
    simp only [List.foldl_cons]
    have h0 : (c.setLayout e.view.image e.view.viewType e.view.range (f e)).images.at i l m
        = if i = e.view.image.id ∧ (getVirtualRange e.view.image e.view.viewType e.view.range).Has l m then some (f e)
          else c.images.at i l m := by
      simp only [Ctx.setLayout, LayoutMap.at_setState]
    rcases ih (c.setLayout e.view.image e.view.viewType e.view.range (f e)) i l m with ⟨x, hx, h1, h2, h3⟩ | ⟨h1, h2⟩
    · exact Or.inl ⟨x, by simp [hx], h1, h2, h3⟩
    · by_cases hm : i = e.view.image.id ∧ (getVirtualRange e.view.image e.view.viewType e.view.range).Has l m
      · rw [if_pos hm] at h0
        exact Or.inl ⟨e, by simp, hm.1, hm.2, h2.trans h0⟩
      · rw [if_neg hm] at h0
        refine Or.inr ⟨?_, h2.trans h0⟩
        intro x hx
        rcases List.mem_cons.1 hx with rfl | hx
        · exact hm
        · exact h1 x hx

/-- A view some subresource of which is tracked has a known layout. -/
theorem tracked_known {c : Ctx} (h : Defined c) {v : View} (hv : v.viewType ≠ .d3) {l m : Nat} (hl : v.range.Has l m)
    (ht : c.images.at v.image.id l m ≠ none) : (c.images.getState v.image v.viewType v.range).layout ≠ Layout.undefined := by
  rw [getState_known_iff, virtual_plain _ _ hv]
  exact ⟨⟨l, m, hl, Option.isSome_iff_ne_none.2 ht⟩, fun l k t _ ht => h _ _ _ _ ht⟩

/-- A pass that draws. -/
theorem steady_draws {sepDS : Bool} {fmt : Nat → Nat} {V : View → Prop} {passes : List RunPass} {G : GraphSt}
    (hT : TidyViews sepDS fmt V passes) {p : RunPass} (hp : p ∈ passes)
    (hD : RPass.Declares sepDS p) {index w ht : Nat} {cached : Option RPass.PassObj}
    (hmade : ∀ o, cached = some o → RPass.MadeFor sepDS p index o) {draw : List Nat} {r r' : Rec} {o : RPass.PassObj}
    (e : RPass.recordPass sepDS G w ht p cached draw index r = some (o, r')) {en : Nat → Bool} (hen : en p.id = true) :
    Steady (MayLose en [p]) r r'
    ∧ ∀ a ∈ p.images, RPass.isTarget a = true → ∀ v, a.img.view index = some v → ∀ l m, v.range.Has l m →
      r'.ctx.images.at v.image.id l m ≠ none := by
  unfold RPass.recordPass at e
  cases e0 : RPass.initialise sepDS G w ht p index cached r.ctx with
  | none => rw [e0] at e; simp at e
  | some obc =>
    obtain ⟨o1, b, c⟩ := obc
    rw [e0] at e
    simp only [Option.map_some, Option.some.injEq, Prod.mk.injEq] at e
    obtain ⟨rfl, rfl⟩ := e
    have hm : RPass.MadeFor sepDS p index o1 := by
      rcases RPass.initialise_cases e0 with ⟨-, hq, -⟩ | ⟨-, hf⟩
      · exact hmade o1 hq
      · exact ⟨G, r.ctx, c, w, ht, hf⟩
    obtain ⟨ts, hts, ho⟩ := RPass.parts_correspond hD hm
    have hatt : ∀ av ∈ ts, av.1 ∈ p.images ∧ RPass.isTarget av.1 = true ∧ av.2 ∈ av.1.img.views ∧ av.2.viewType ≠ .d3 := by
      intro av hav
      have h1 : av.1 ∈ p.images.filter RPass.isTarget := by
        rw [← hts.all]; exact List.mem_map_of_mem hav
      have h2 := List.mem_filter.1 h1
      have h3 := view_mem (hts.view av hav)
      exact ⟨h2.1, h2.2, h3, hT.tidy.view _ (hT.attached av.2 ⟨p, hp, av.1, h2.1, h3⟩).1⟩
    have hall : c.implicit = r.ctx.implicit
        ∧ (∀ i l m, (∀ av ∈ ts, ¬ (i = av.2.image.id ∧ av.2.range.Has l m)) → c.images.at i l m = r.ctx.images.at i l m)
        ∧ (∀ (k : Nat) (av : Attachment × View) (en : RPass.Entry), ts[k]? = some av → o1.entries[k]? = some en → av.1.isInput = true →
          (r.ctx.images.getState av.2.image av.2.viewType av.2.range).layout ≠ Layout.undefined →
          en.input.layout ≠ Layout.undefined) := by
      rcases RPass.initialise_cases e0 with ⟨rfl, hq, hchk, hpv, hnx, rfl⟩ | ⟨hb, hf⟩
      · refine ⟨rfl, fun _ _ _ _ => rfl, ?_⟩
        intro k av en hk he _ hs
        obtain ⟨en', d, g1, g2, g3, -⟩ := ho.at' k av hk
        rw [he] at g1
        cases g1
        have ht5 := (RPass.reuse_fits_tracked e0).2.2.2.2 en (List.mem_of_getElem? he)
        rw [g3] at ht5
        rw [← (ht5 hs).1]
        exact hs
      · obtain ⟨q1, q2, f1, f2, f3⟩ := RPass.initialise_new hf
        obtain ⟨us, u1, u2, u3, u4, u5, u6⟩ := RPass.createAll_ctx hT hp p.images (fun _ h => h) (hT.apart p hp index) _ _ _ _ f1
        have hus : ts = us := RPass.targets_eq (p := p) (by rw [hts.all, u1]) hts.view u2
        subst hus
        refine ⟨u3, u5, ?_⟩
        intro k av en hk he hi hs
        rw [RPass.made_entries hT hp hts hf, List.getElem?_map, hk] at he
        rw [← Option.some.inj he]
        unfold RPass.entryOf getCurrentLayoutState
        simp only [hi, Bool.not_true, Bool.false_eq_true, if_false, hs]
        exact hs
    obtain ⟨hc1, hc2, hc3⟩ := hall
    -- positions of entries and targets
    have hent : ∀ en ∈ o1.entries, ∃ (k : Nat) (av : Attachment × View), ts[k]? = some av ∧ o1.entries[k]? = some en ∧ en.view = av.2
        ∧ en.output.layout ≠ Layout.undefined := by
      intro en hen
      obtain ⟨k, hk⟩ := List.mem_iff_getElem?.1 hen
      have hlt : k < ts.length := by
        rw [← ho.entries]
        exact (List.getElem?_eq_some_iff.1 hk).1
      obtain ⟨en', d, g1, g2, g3, g4, g5, g6, g7, g8, g9, g10, g11, g12⟩ := ho.at' k _ (List.getElem?_eq_getElem hlt)
      rw [hk] at g1
      cases g1
      exact ⟨k, _, List.getElem?_eq_getElem hlt, hk, g3, g12⟩
    have hcases : ∀ i l m, (∃ s : LayoutState, s.layout ≠ Layout.undefined ∧
          (RPass.endPass { RPass.beginPass { r with ctx := c } o1 with
            cmds := (RPass.beginPass { r with ctx := c } o1).cmds ++ draw.map .user } o1).ctx.images.at i l m = some s)
        ∨ (RPass.endPass { RPass.beginPass { r with ctx := c } o1 with
            cmds := (RPass.beginPass { r with ctx := c } o1).cmds ++ draw.map .user } o1).ctx.images.at i l m
          = r.ctx.images.at i l m := by
      intro i l m
      rcases setAll_cases (fun e => e.output) o1.entries
        (o1.entries.foldl (fun (c : Ctx) (e : RPass.Entry) => c.setLayout e.view.image e.view.viewType e.view.range e.input) c) i l m with
        ⟨en, hen, -, -, h3⟩ | ⟨h1, h2⟩
      · obtain ⟨k, av, -, -, -, h5⟩ := hent en hen
        exact Or.inl ⟨en.output, h5, h3⟩
      · refine Or.inr (h2.trans (((RPass.setAll_at (fun e => e.input) o1.entries c i l m).1 h1).trans (hc2 i l m ?_)))
        rintro av hav ⟨q1, q2⟩
        obtain ⟨k, hk⟩ := List.mem_iff_getElem?.1 hav
        obtain ⟨en', d, g1, g2, g3, -⟩ := ho.at' k av hk
        refine h1 en' (List.mem_of_getElem? g1) ?_
        rw [g3, virtual_plain _ _ (hatt av hav).2.2.2]
        exact ⟨q1, q2⟩
    refine ⟨⟨fun hdef => ⟨?_, ?_, ?_⟩, ?_⟩, ?_⟩
    · intro i l m t ht
      rcases hcases i l m with ⟨s, hs, h1⟩ | h1
      · rw [h1] at ht
        cases ht
        exact hs
      · rw [h1] at ht
        exact hdef i l m t ht
    · intro i l m hn
      rcases hcases i l m with ⟨s, hs, h1⟩ | h1
      · rw [h1] at hn
        simp at hn
      · rw [← h1]
        exact hn
    · refine ⟨.beginPass o1.atts o1.width o1.height o1.layers :: (draw.map .user ++ [.endPass o1.atts]), ?_, ?_⟩
      · show ((r.cmds ++ [_]) ++ draw.map .user) ++ [_] = _
        simp
      · intro k hk x hx hd
        simp only [List.mem_cons, List.mem_append, List.mem_map, List.not_mem_nil, or_false] at hk
        rcases hk with rfl | ⟨n, -, rfl⟩ | rfl
        · refine ⟨fun h => h, ?_⟩
          obtain ⟨y, hy, hof, h⟩ := hd
          obtain ⟨j, av, d, h1, h2, rfl⟩ := RPass.att_of ho hy
          obtain ⟨en, d', g1, g2, g3, g4, g5, g6, g7, g8, g9, g10, g11, g12⟩ := ho.at' j av h1
          rw [h2] at g2
          cases g2
          obtain ⟨a1, a2, a3, a4⟩ := hatt av (List.mem_of_getElem? h1)
          refine ⟨p, by simp, hen, av.1, a1, a2, av.2, a3, ⟨hof.1.symm, hof.2.2⟩, ?_⟩
          cases hi : av.1.isInput with
          | false => exact Or.inl rfl
          | true =>
            right
            have hin := hc3 j av en h1 g1 hi (tracked_known hdef a4 hof.2.2 (by
              rw [show av.2.image.id = x.image from hof.1]; exact hx))
            rcases h with h | h
            · exact absurd (g5.symm.trans h) hin
            · unfold RPass.PassObj.att at h
              unfold RPass.loadOpFor
              by_cases h2 : x.aspect = 2
              · simp only [h2, if_true] at h ⊢
                rw [g9, g4, getAspectMask_eq, Bool.and_eq_false_iff] at h
                rcases h with h | h
                · left; simpa using h
                · exact Or.inr (Or.inr ⟨trivial, h⟩)
              · simp only [h2, if_false] at h ⊢
                rw [g7, if_neg hin] at h
                left; simpa using h
        · exact absurd hd (fun h => h)
        · refine ⟨fun h => h, ?_⟩
          obtain ⟨y, hy, hof, h⟩ := hd
          obtain ⟨j, av, d, h1, h2, rfl⟩ := RPass.att_of ho hy
          obtain ⟨en, d', g1, g2, g3, g4, g5, g6, g7, g8, g9, g10, g11, g12⟩ := ho.at' j av h1
          rw [h2] at g2
          cases g2
          obtain ⟨a1, a2, a3, a4⟩ := hatt av (List.mem_of_getElem? h1)
          refine ⟨p, by simp, hen, av.1, a1, a2, av.2, a3, ⟨hof.1.symm, hof.2.2⟩, Or.inr (Or.inr (Or.inl ?_))⟩
          unfold RPass.PassObj.att at h
          unfold RPass.storeOpFor
          simp only [g8, g10] at h
          by_cases h2 : x.aspect = 2
          · simp only [h2, if_true] at h ⊢; simpa using h
          · simp only [h2, if_false] at h ⊢; simpa using h
    · intro hf t ht
      refine hf t ?_
      have : (RPass.endPass { RPass.beginPass { r with ctx := c } o1 with
            cmds := (RPass.beginPass { r with ctx := c } o1).cmds ++ draw.map .user } o1).ctx.implicit = r.ctx.implicit :=
        (RPass.setAll_keeps (fun e => e.output) o1.entries _).trans ((RPass.setAll_keeps (fun e => e.input) o1.entries c).trans hc1)
      rw [← this]
      exact ht
    · intro a ha hta v hv l m hl
      have h1 : a ∈ ts.map (·.1) := by
        rw [hts.all]; exact List.mem_filter.2 ⟨ha, hta⟩
      obtain ⟨av, hav, rfl⟩ := List.mem_map.1 h1
      have h2 := hts.view av hav
      rw [hv] at h2
      cases h2
      obtain ⟨k, hk⟩ := List.mem_iff_getElem?.1 hav
      obtain ⟨en', d, g1, g2, g3, -⟩ := ho.at' k av hk
      rcases setAll_cases (fun e => e.output) o1.entries
        (o1.entries.foldl (fun (c : Ctx) (e : RPass.Entry) => c.setLayout e.view.image e.view.viewType e.view.range e.input) c)
        av.2.image.id l m with ⟨en, -, -, -, h3⟩ | ⟨h1, -⟩
      · intro hn
        have h3 := h3.symm.trans hn
        simp at h3
      · refine absurd ?_ (h1 en' (List.mem_of_getElem? g1))
        rw [g3, virtual_plain _ _ (hatt av hav).2.2.2]
        exact ⟨rfl, hl⟩

/-- The body of a pass of any kind. -/
theorem steady_kind {sepDS : Bool} {fmt : Nat → Nat} {V : View → Prop} {passes : List RunPass} {G : GraphSt}
    (hT : TidyViews sepDS fmt V passes) (cached : Nat → Option RPass.PassObj) {p : RunPass} (hp : p ∈ passes)
    (hk : Lib.Kind sepDS G V passes cached p) {index : Nat}
    (hmade : ∀ o, cached index = some o → RPass.MadeFor sepDS p index o) {r : Rec}
    (hann : (∃ ty output, Lib.MakesMipmaps sepDS G p ty output) → Lib.Announces sepDS G p index r) (hf : FlatPending r) {en : Nat → Bool}
    (hen : en p.id = true) : Steady (MayLose en [p]) r (p.body index r) := by
  have hv : ∀ a ∈ p.images, ∀ v ∈ a.img.views, v.viewType ≠ .d3 :=
    fun a ha v hv => hT.tidy.view _ (hT.attached v ⟨p, hp, a, ha, hv⟩).1
  cases hk with
  | draws hR hD =>
    obtain ⟨w, ht, draw, hb⟩ := hR
    rw [hb]
    cases e1 : RPass.recordPass sepDS G w ht p (cached index) draw index r with
    | none => exact steady_refl r
    | some x =>
      obtain ⟨o, r'⟩ := x
      exact (steady_draws hT hp hD hmade e1 hen).1
  | transfers hX => exact steady_transfers hv hX index r
  | mipmaps ty output hM =>
    obtain ⟨en', hb⟩ := hM.body index r
    rw [hb]
    have ha' := hann ⟨ty, output, hM⟩
    split
    · rename_i a ha
      split
      · rename_i v hv
        exact steady_generate ⟨sepDS, en'⟩ G v hM.kind (ha' a ha v hv).1 r
      · exact steady_refl r
    · exact steady_refl r
  | uses hb =>
    obtain ⟨calls, hc, eb⟩ := hb index r
    rw [eb]
    exact steady_performAll sepDS hT.tidy.view calls hc r hf

/-! ### C69 -/

/-- What is asked of the passes for C69: their views are tidy, they are of the library's kinds, the render pass objects kept
were made for them, and layouts are announced to mipmap generation. -/
structure Ordinary (sepDS : Bool) (fmt : Nat → Nat) (V : View → Prop) (G : GraphSt) (en : Nat → Bool) (index : Nat → Nat)
    (passes : List RunPass) (f : Frame) (cached : Nat → Nat → Option RPass.PassObj) : Prop where
  tidy : TidyViews sepDS fmt V passes
  kind : ∀ p ∈ passes, Lib.Kind sepDS G V passes (cached p.id) p
  made : ∀ p ∈ passes, ∀ o, cached p.id (index p.id) = some o → RPass.MadeFor sepDS p (index p.id) o
  announced : ∀ p r, Enters ⟨sepDS, en⟩ G index passes f p r →
    (∃ ty output, Lib.MakesMipmaps sepDS G p ty output) → Lib.Announces sepDS G p (index p.id) r

variable {sepDS : Bool} {fmt : Nat → Nat} {V : View → Prop} {passes : List RunPass} {g0 : Layouts} {G : GraphSt}

theorem steady_record {cached : Nat → Nat → Option RPass.PassObj} {en : Nat → Bool} {index : Nat → Nat} {deps : List Ctx}
    {ini : Nat → Nat → Bool} {log : List Event}
    (hO : Ordinary sepDS fmt V G en index passes (frameStart sepDS deps passes ini log) cached)
    {G' : GraphSt} {f : Frame} (e : record ⟨sepDS, en⟩ G deps index passes ini log = some (G', f)) :
    G'.final = f.recd.ctx ∧ Steady (MayLose en passes) (frameStart sepDS deps passes ini log).recd f.recd
    ∧ ∀ k r, RPass.enteredRec ⟨sepDS, en⟩ G index passes (frameStart sepDS deps passes ini log) k = some r →
      ∃ p, passes[k]? = some p ∧ Enters ⟨sepDS, en⟩ G index passes (frameStart sepDS deps passes ini log) p r
      ∧ Steady (MayLose en (passes.take k)) (frameStart sepDS deps passes ini log).recd r
      ∧ Steady (MayLose en [p]) r (p.body (index p.id) r)
      ∧ Steady (MayLose en (passes.drop (k + 1))) (p.body (index p.id) r) f.recd := by
  have hT := hO.tidy
  have hk := firstAnnounce_keeps sepDS passes (startCtx deps)
  have hf : FlatPending (frameStart sepDS deps passes ini log).recd := by
    intro t ht
    rw [show (frameStart sepDS deps passes ini log).recd.ctx.implicit = (firstAnnounce sepDS passes (startCtx deps)).implicit from rfl,
      hk.2, startCtx_implicit] at ht
    simp at ht
  have hg : Gentle ⟨sepDS, en⟩ G index passes (frameStart sepDS deps passes ini log) :=
    ⟨fun p hp a ha v hv => hT.tidy.view _ (hT.attached v ⟨p, hp, a, ha, hv⟩).1, fun p hp => hT.layouts p hp,
      fun p hp va hva w hw => hT.tidy.view _ (touched_in (hT.actions p hp va hva).2.1 w hw),
      fun p r he hr => steady_kind hT (cached p.id) (enters_mem he) (hO.kind p (enters_mem he)) (hO.made p (enters_mem he))
        (hO.announced p r he) hr (enters_enabled he)⟩
  unfold record at e
  simp only at e
  split at e
  · simp at e
  · rename_i f1 e1
    simp only [Option.some.injEq, Prod.mk.injEq] at e
    obtain ⟨rfl, rfl⟩ := e
    exact ⟨rfl, steady_loop passes _ hg hf _ e1⟩

theorem start_defined {deps : List Ctx} (hd : Defined (startCtx deps)) (ini : Nat → Nat → Bool) (log : List Event) :
    Defined (frameStart sepDS deps passes ini log).recd.ctx := by
  have hk := firstAnnounce_keeps sepDS passes (startCtx deps)
  unfold Defined
  rw [show (frameStart sepDS deps passes ini log).recd.ctx.images = (firstAnnounce sepDS passes (startCtx deps)).images from rfl, hk.1]
  exact hd

/-- C69 (partial: tidy views; what is untracked may be discarded, see `substitute_copy_discards_source`). In a frame of a graph
of passes of the library's kinds: from the moment the body of a pass starts, and from the moment it ends, to the end of the
frame, no command recorded discards a subresource whose layout is tracked, but the start and the end of render passes, of
enabled passes from then on, with a target over it that isn't declared as both loaded and stored. No barrier does. What the
graph remembers at the end is never that a layout is UNDEFINED. -/
theorem tracked_never_discarded_partial {cached : Nat → Nat → Option RPass.PassObj} {en : Nat → Bool} {index : Nat → Nat}
    {deps : List Ctx} {ini : Nat → Nat → Bool} {log : List Event}
    (hO : Ordinary sepDS fmt V G en index passes (frameStart sepDS deps passes ini log) cached)
    (hd : Defined (startCtx deps)) {G' : GraphSt} {f : Frame}
    (e : record ⟨sepDS, en⟩ G deps index passes ini log = some (G', f)) :
    Preserves (MayLose en passes) (frameStart sepDS deps passes ini log).recd f.recd ∧ Defined G'.final
    ∧ ∀ k p r, passes[k]? = some p →
      RPass.enteredRec ⟨sepDS, en⟩ G index passes (frameStart sepDS deps passes ini log) k = some r →
      Preserves (MayLose en (passes.drop k)) r f.recd
      ∧ Preserves (MayLose en (passes.drop (k + 1))) (p.body (index p.id) r) f.recd := by
  obtain ⟨e1, s0, sp⟩ := steady_record hO e
  have hd' := start_defined (sepDS := sepDS) (passes := passes) hd ini log
  refine ⟨(s0.1 hd').2.2, by rw [e1]; exact (s0.1 hd').1, ?_⟩
  intro k p r hk he
  obtain ⟨q, hq, -, t1, t2, t3⟩ := sp k r he
  rw [hk] at hq
  cases hq
  obtain ⟨d1, -, -⟩ := t1.1 hd'
  obtain ⟨d2, -, -⟩ := t2.1 d1
  have hdrop : passes.drop k = p :: passes.drop (k + 1) := by
    obtain ⟨hlt, rfl⟩ := List.getElem?_eq_some_iff.1 hk
    exact List.drop_eq_getElem_cons hlt
  refine ⟨((steady_trans (steady_weaken ?_ t2) (steady_weaken ?_ t3)).1 d1).2.2, (t3.1 d2).2.2⟩
  · rintro c ⟨q, hq, h⟩
    rw [List.mem_singleton] at hq
    subst hq
    exact ⟨q, by rw [hdrop]; simp, h⟩
  · rintro c ⟨q, hq, h⟩
    exact ⟨q, by rw [hdrop]; simp [hq], h⟩

theorem kept_until {lost : Cell → Prop} {r r' : Rec} (h : Preserves lost r r') {c : Cell}
    (ht : r.ctx.images.at c.image c.layer c.level ≠ none) (hl : ¬ lost c) {cs ds : List Cmd} (e : r'.cmds = r.cmds ++ cs ++ ds)
    (dev : Device) (hw : ∀ k ∈ cs, ¬ Writes dev k c) (M : Memory) : (steps dev M cs).image c = M.image c := by
  obtain ⟨xs, e1, h1⟩ := h
  rw [e, List.append_assoc] at e1
  have e2 := List.append_cancel_left e1
  refine steps_keep cs (fun k hk => ⟨fun hd => hl (h1 k ?_ c ht hd).2, hw k hk⟩) M
  rw [← e2]
  exact List.mem_append_left _ hk

/-- C69 for the images a pass uses (sampled, storage, transfer, …; partial: as `tracked_never_discarded_partial`). What such an
image holds when the body of the pass starts, and when it ends, stays there, whatever is recorded after it, until a command
writes it — unless an enabled pass, from then on, draws to the image without both loading and storing it. -/
theorem used_images_kept_partial {cached : Nat → Nat → Option RPass.PassObj} {en : Nat → Bool} {index : Nat → Nat}
    {deps : List Ctx} {ini : Nat → Nat → Bool} {log : List Event}
    (hO : Ordinary sepDS fmt V G en index passes (frameStart sepDS deps passes ini log) cached)
    (hd : Defined (startCtx deps)) (hH : Honest fmt V g0 (startCtx deps) G)
    (hwell : Lib.EntersWell sepDS G en index passes (frameStart sepDS deps passes ini log) cached)
    {G' : GraphSt} {f : Frame} (e : record ⟨sepDS, en⟩ G deps index passes ini log = some (G', f))
    {k : Nat} {p : RunPass} (hk : passes[k]? = some p) {r : Rec}
    (he : RPass.enteredRec ⟨sepDS, en⟩ G index passes (frameStart sepDS deps passes ini log) k = some r)
    {a : Attachment} (ha : a ∈ p.images) (hm : moved a = true) {v : View} (hv : a.img.view (index p.id) = some v)
    {c : Cell} (hc : c.InView v) (dev : Device) (M : Memory) (cs ds : List Cmd) (hw : ∀ k ∈ cs, ¬ Writes dev k c) :
    (f.recd.cmds = r.cmds ++ cs ++ ds → ¬ MayLose en (passes.drop k) c → (steps dev M cs).image c = M.image c)
    ∧ (f.recd.cmds = (p.body (index p.id) r).cmds ++ cs ++ ds → ¬ MayLose en (passes.drop (k + 1)) c →
      (steps dev M cs).image c = M.image c) := by
  obtain ⟨-, -, sp⟩ := steady_record hO e
  obtain ⟨q, hq, hE, t1, t2, -⟩ := sp k r he
  rw [hk] at hq
  cases hq
  have hr := (ready_of_bodies hO.tidy en index deps hH ini log
    (Lib.bodies_keep hO.tidy cached hO.kind en index deps hH ini log hO.made hwell) p r hE).2
  have ht := (hr a ha hm v hv).2 c.layer c.level hc.2
  rw [← hc.1] at ht
  obtain ⟨p1, p2⟩ := (tracked_never_discarded_partial hO hd e).2.2 k p r hk he
  have hmono := (t2.1 (t1.1 (start_defined hd ini log)).1).2.1
  exact ⟨fun hcs hl => kept_until p1 ht hl hcs dev hw M,
    fun hcs hl => kept_until p2 (fun h => ht (hmono _ _ _ h)) hl hcs dev hw M⟩

/-- C69 for what a pass draws (partial: as `tracked_never_discarded_partial`). What a render target holds when the pass ends
stays there until a command writes it, unless a later enabled pass draws to it without both loading and storing it. -/
theorem drawn_images_kept_partial {cached : Nat → Nat → Option RPass.PassObj} {en : Nat → Bool} {index : Nat → Nat}
    {deps : List Ctx} {ini : Nat → Nat → Bool} {log : List Event}
    (hO : Ordinary sepDS fmt V G en index passes (frameStart sepDS deps passes ini log) cached)
    (hd : Defined (startCtx deps)) {G' : GraphSt} {f : Frame}
    (e : record ⟨sepDS, en⟩ G deps index passes ini log = some (G', f))
    {k : Nat} {p : RunPass} (hk : passes[k]? = some p) {r : Rec}
    (he : RPass.enteredRec ⟨sepDS, en⟩ G index passes (frameStart sepDS deps passes ini log) k = some r)
    (hD : RPass.Declares sepDS p) {w h : Nat} {draw : List Nat} {o : RPass.PassObj}
    (hb : RPass.recordPass sepDS G w h p (cached p.id (index p.id)) draw (index p.id) r = some (o, p.body (index p.id) r))
    {a : Attachment} (ha : a ∈ p.images) (ht : RPass.isTarget a = true) {v : View} (hv : a.img.view (index p.id) = some v)
    {c : Cell} (hc : c.InView v) (hl : ¬ MayLose en (passes.drop (k + 1)) c) (dev : Device) (M : Memory) (cs ds : List Cmd)
    (hw : ∀ k ∈ cs, ¬ Writes dev k c) (hcs : f.recd.cmds = (p.body (index p.id) r).cmds ++ cs ++ ds) :
    (steps dev M cs).image c = M.image c := by
  have hp := List.mem_of_getElem? hk
  obtain ⟨-, -, sp⟩ := steady_record hO e
  obtain ⟨q, hq, hE, -⟩ := sp k r he
  rw [hk] at hq
  cases hq
  have htr := (steady_draws hO.tidy hp hD (hO.made p hp) hb (enters_enabled hE)).2 a ha ht v hv c.layer c.level hc.2
  rw [← hc.1] at htr
  exact kept_until ((tracked_never_discarded_partial hO hd e).2.2 k p r hk he).2 htr hl hcs dev hw M

/-! ### The hypotheses are met -/

theorem split_at {r r' : Rec} {lost : Cell → Prop} (h : Preserves lost r r') (n : Nat) :
    r'.cmds = r.cmds ++ (r'.cmds.drop r.cmds.length).take n ++ (r'.cmds.drop r.cmds.length).drop n := by
  obtain ⟨cs, e, -⟩ := h
  rw [e, List.drop_left, List.append_assoc, List.take_append_drop]

theorem empty_defined : Defined (startCtx []) := by
  intro i l m t h
  simp [startCtx, Ctx.new, LayoutMap.empty, LayoutMap.at] at h

set_option maxRecDepth 20000 in
/-- The graph of Library.lean: the first level that the copy pass writes stays as it is while the other levels are made from it
and all are moved to be sampled. -/
theorem example_used_kept : ∃ G' f,
    record ⟨false, fun _ => true⟩ xG [] (fun _ => 0) Lib.ePasses (fun _ _ => false) [] = some (G', f)
    ∧ f.recd.cmds.length = 11
    ∧ ∀ dev M, (steps dev M ((f.recd.cmds.drop 3).take 7)).image ⟨2, 0, 0, 0, 5, 5, 0, 1⟩ = M.image ⟨2, 0, 0, 0, 5, 5, 0, 1⟩ := by
  have hO : Ordinary false (fun _ => 37) Lib.eV xG (fun _ => true) (fun _ => 0) Lib.ePasses
      (frameStart false [] Lib.ePasses (fun _ _ => false) []) Lib.noObj :=
    ⟨Lib.example_views, Lib.example_kinds, fun _ _ _ h => by simp [Lib.noObj] at h,
      fun p r he => (Lib.example_well p r he).2⟩
  have h : ((record ⟨false, fun _ => true⟩ xG [] (fun _ => 0) Lib.ePasses (fun _ _ => false) []).map fun x =>
        (x.2.recd.cmds.length, (x.2.recd.cmds.drop 3).take 7))
      = some (11, [.imageBarrier 2 ⟨1, 0, 1, 0, 1⟩ ⟨4096, 4096⟩ ⟨2048, 4096⟩ 7 6,
        .blitImage 2 6 ⟨1, 0, 1, 0, 1⟩ ⟨0, 0, 0, 64, 64, 1⟩ 2 7 ⟨1, 1, 1, 0, 1⟩ ⟨0, 0, 0, 32, 32, 1⟩ 1,
        .imageBarrier 2 ⟨1, 0, 1, 0, 1⟩ ⟨2048, 4096⟩ ⟨32, 128⟩ 6 5,
        .imageBarrier 2 ⟨1, 1, 1, 0, 1⟩ ⟨4096, 4096⟩ ⟨2048, 4096⟩ 7 6,
        .blitImage 2 6 ⟨1, 1, 1, 0, 1⟩ ⟨0, 0, 0, 32, 32, 1⟩ 2 7 ⟨1, 2, 1, 0, 1⟩ ⟨0, 0, 0, 16, 16, 1⟩ 1,
        .imageBarrier 2 ⟨1, 1, 1, 0, 1⟩ ⟨2048, 4096⟩ ⟨32, 128⟩ 6 5,
        .imageBarrier 2 ⟨1, 2, 1, 0, 1⟩ ⟨4096, 4096⟩ ⟨32, 128⟩ 7 5]) := by decide
  obtain ⟨⟨G', f⟩, e, h⟩ := Option.map_eq_some_iff.1 h
  simp only [Prod.mk.injEq] at h
  obtain ⟨h1, h2⟩ := h
  have hr : ((RPass.enteredRec ⟨false, fun _ => true⟩ xG (fun _ => 0) Lib.ePasses
      (frameStart false [] Lib.ePasses (fun _ _ => false) []) 0).map fun r => (Lib.eCopy.body 0 r).cmds.length) = some 3 := by
    decide
  obtain ⟨r, er, hr⟩ := Option.map_eq_some_iff.1 hr
  refine ⟨G', f, e, h1, fun dev M => ?_⟩
  have hsp := split_at ((tracked_never_discarded_partial hO empty_defined e).2.2 0 Lib.eCopy r rfl er).2 7
  rw [hr] at hsp
  refine (used_images_kept_partial hO empty_defined Lib.example_honest Lib.example_well e (k := 0) (p := Lib.eCopy) rfl er
    (a := ImageAdder.transferOutput.attach 1 0 [Lib.eDst]) (by simp [Lib.eCopy, Lib.eCopy0]) (by decide) (v := Lib.eDst) rfl
    ⟨rfl, by decide⟩ dev M _ _ ?_).2 hsp ?_
  · rw [h2]
    intro k hk
    simp only [List.mem_cons, List.not_mem_nil, or_false] at hk
    rcases hk with rfl | rfl | rfl | rfl | rfl | rfl | rfl <;> simp [Writes, Selects, Range.Has]
  · rintro ⟨q, hq, -, a, ha, ht, -⟩
    simp only [Lib.ePasses, List.drop_succ_cons, List.drop_zero, List.mem_cons, List.not_mem_nil, or_false] at hq
    rcases hq with rfl | rfl
    · simp only [Lib.eMips, Lib.eMips0, List.mem_cons, List.not_mem_nil, or_false] at ha
      subst ha
      exact absurd ht (by decide)
    · simp only [Lib.eSample, List.mem_cons, List.not_mem_nil, or_false] at ha
      subst ha
      exact absurd ht (by decide)

theorem aPasses_declares : ∀ q ∈ RPass.aPasses xG none, RPass.Declares false q := by
  intro q hq a ha
  have h : a.img.views = [xView] ∧ a.getImageLayout false ≠ Layout.undefined := by
    simp only [RPass.aPasses, RPass.RunPass.drawing, RPass.aFirst, RPass.aBlend, RPass.aSample, RPass.drawPass, List.mem_cons,
      List.not_mem_nil, or_false] at hq
    rcases hq with rfl | rfl | rfl <;>
      (simp only [List.mem_cons, List.not_mem_nil, or_false] at ha; subst ha; exact ⟨rfl, by decide⟩)
  refine ⟨h.2, fun v hv => ?_⟩
  rw [h.1, List.mem_singleton] at hv
  subst hv
  exact ⟨xView.range, ⟨⟨rfl, rfl⟩, fun h => absurd h (by decide), fun _ => ⟨rfl, rfl⟩⟩, by decide⟩

/-- The graph of RenderPass.lean: what the first pass draws is still there when the second one starts drawing over it. -/
theorem example_drawn_kept : ∃ G' f, record ⟨false, fun _ => true⟩ xG [] (fun _ => 0) (RPass.aPasses xG none) (fun _ _ => false) [] = some (G', f)
    ∧ f.recd.cmds[4]? = some (.user 2)
    ∧ ∀ dev M, (steps dev M ((f.recd.cmds.drop 3).take 1)).image ⟨1, 0, 0, 0, 63, 63, 0, 2⟩ = M.image ⟨1, 0, 0, 0, 63, 63, 0, 2⟩ := by
  have hO : Ordinary false (fun _ => 37) xV xG (fun _ => true) (fun _ => 0) (RPass.aPasses xG none)
      (frameStart false [] (RPass.aPasses xG none) (fun _ _ => false) []) (fun _ _ => none) := by
    refine ⟨RPass.aPasses_tidy xG none, ?_, fun _ _ _ h => by simp at h, ?_⟩
    · intro p hp
      have hd := aPasses_declares p hp
      simp only [RPass.aPasses, List.mem_cons, List.not_mem_nil, or_false] at hp
      rcases hp with rfl | rfl | rfl
      · exact .draws (RPass.drawing_renders _ _ _ _ _) hd
      · exact .draws (RPass.drawing_renders _ _ _ _ _) hd
      · exact .uses fun _ r => ⟨[], by simp, rfl⟩
    · rintro p r he ⟨ty, output, hM⟩
      have hp := enters_mem he
      have := hM.declared
      simp only [RPass.aPasses, RPass.RunPass.drawing, RPass.aFirst, RPass.aBlend, RPass.aSample, RPass.drawPass, List.mem_cons,
        List.not_mem_nil, or_false] at hp
      rcases hp with rfl | rfl | rfl <;>
        exact absurd ((this _ rfl).2 xView (by simp [ImageAdder.attach, mkImage])).2.2 (by decide)
  have h : ((record ⟨false, fun _ => true⟩ xG [] (fun _ => 0) (RPass.aPasses xG none) (fun _ _ => false) []).map fun x =>
      (x.2.recd.cmds[4]?, (x.2.recd.cmds.drop 3).take 1)) = some (some (.user 2), [.beginPass [RPass.att1] 64 64 1]) := by decide
  obtain ⟨⟨G', f⟩, e, h⟩ := Option.map_eq_some_iff.1 h
  simp only [Prod.mk.injEq] at h
  obtain ⟨h1, h2⟩ := h
  have hr : ((RPass.enteredRec ⟨false, fun _ => true⟩ xG (fun _ => 0) (RPass.aPasses xG none)
      (frameStart false [] (RPass.aPasses xG none) (fun _ _ => false) []) 0).map fun r =>
        ((RPass.recordPass false xG 64 64 RPass.aFirst none [1] 0 r).isSome,
          ((RPass.RunPass.drawing false xG RPass.aFirst none [1]).body 0 r).cmds.length)) = some (true, 3) := by
    decide
  obtain ⟨r, er, hr⟩ := Option.map_eq_some_iff.1 hr
  simp only [Prod.mk.injEq] at hr
  obtain ⟨hr0, hr⟩ := hr
  obtain ⟨⟨o, r'⟩, eb⟩ := Option.isSome_iff_exists.1 hr0
  refine ⟨G', f, e, h1, fun dev M => ?_⟩
  have hsp := split_at ((tracked_never_discarded_partial hO empty_defined e).2.2 0
    (RPass.RunPass.drawing false xG RPass.aFirst none [1]) r rfl er).2 1
  rw [hr] at hsp
  have hbody : (RPass.RunPass.drawing false xG RPass.aFirst none [1]).body 0 r = r' := by
    simp only [RPass.RunPass.drawing, eb, Option.map_some, Option.getD_some]
  refine drawn_images_kept_partial hO empty_defined e (k := 0) (p := RPass.RunPass.drawing false xG RPass.aFirst none [1]) rfl er
    (aPasses_declares _ (by simp [RPass.aPasses])) (w := 64) (h := 64) (draw := [1]) (o := o) (by rw [hbody]; exact eb)
    (a := ImageAdder.outputColour.attach 1 0 [xView]) (by simp [RPass.RunPass.drawing, RPass.aFirst, RPass.drawPass]) (by decide)
    (v := xView) rfl ⟨rfl, by decide⟩ ?_ dev M _ _ ?_ hsp
  · rintro ⟨q, hq, -, a, ha, ht, v, hv, -, h⟩
    simp only [RPass.aPasses, List.drop_succ_cons, List.drop_zero, List.mem_cons, List.not_mem_nil, or_false] at hq
    rcases hq with rfl | rfl
    · simp only [RPass.RunPass.drawing, RPass.aBlend, RPass.drawPass, List.mem_cons, List.not_mem_nil, or_false] at ha
      subst ha
      rcases h with h | h | h | ⟨h, -⟩ <;> exact absurd h (by decide)
    · simp only [RPass.aSample, RPass.drawPass, List.mem_cons, List.not_mem_nil, or_false] at ha
      subst ha
      exact absurd ht (by decide)
  · rw [h2]
    intro k hk
    simp only [List.mem_cons, List.not_mem_nil, or_false] at hk
    subst hk
    rintro ⟨x, hx⟩
    revert hx
    simp [clearedTo, RPass.att1, Cell.InBox, RPass.rng1]

end Verif.Run
