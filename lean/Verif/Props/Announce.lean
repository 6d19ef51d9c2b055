import Verif.Lemmas.OMap
import Verif.Props.Layout
import Verif.Props.Ready
/-
C18, C19, C20: what the recording context tells a pass about the passes around it, and where the current and next
layouts of an image are looked up.
-/
namespace Verif.Run
open Verif.Rec Verif.Att Verif.Gpu

/-! ### Specification -/

/-- While the passes are recorded from `f`, the body of the `k`-th one is entered with the recording `r` (in
particular that pass is enabled). -/
def EntersAt (env : Env) (G : GraphSt) (index : Nat → Nat) : List RunPass → Frame → Nat → Rec → Prop
  | [], _, _, _ => False
  | p :: next, f, 0, r =>
    env.enabled p.id = true
    ∧ prepare env G p (index p.id) { f.recd with ctx := announce env G p next f.recd.ctx } = some r
  | p :: next, f, k + 1, r =>
    ∃ f', recordInto env G p (index p.id)
        { f with recd := { f.recd with ctx := announce env G p next f.recd.ctx } } = some f'
      ∧ EntersAt env G index next f' k r

/-- Pass bodies do not change the pipeline states nor the announced layouts of the context (only
`setNextPipelineState` does). -/
def KeepsPipeline (p : RunPass) : Prop :=
  ∀ i r, (p.body i r).ctx.prev = r.ctx.prev ∧ (p.body i r).ctx.curr = r.ctx.curr
    ∧ (p.body i r).ctx.next = r.ctx.next ∧ (p.body i r).ctx.nextImages = r.ctx.nextImages

/-- Pass `p` attaches a view of layer `l` of image `i`. -/
def UsesLayer (p : RunPass) (i l : Nat) : Prop :=
  ∃ a ∈ p.images, ∃ v ∈ a.img.views, v.image.id = i
    ∧ ∃ sub, Designates v.image v.viewType v.range sub ∧ sub.baseLayer ≤ l ∧ l < sub.baseLayer + sub.layers

/-- Pass `p` attaches a view of subresource `(l, m)` of image `i`, in attachment `a`. -/
def UsesIn (p : RunPass) (a : Attachment) (i l m : Nat) : Prop :=
  a ∈ p.images ∧ ∃ v ∈ a.img.views, v.image.id = i
    ∧ ∃ sub, Designates v.image v.viewType v.range sub ∧ sub.Has l m

/-- Both passes attach some layer of image `i`. -/
def Share (p q : RunPass) (i : Nat) : Prop := ∃ l, UsesLayer p i l ∧ UsesLayer q i l

/-- The state in which a pass expects the images of an attachment. -/
def expects (sepDS : Bool) (p : RunPass) (a : Attachment) : LayoutState :=
  ⟨a.getImageLayout sepDS, ⟨a.getAccessMask, a.getPipelineStageFlags p.compute⟩⟩

/-- The first enabled pass of a list. -/
def FirstEnabled (enabled : Nat → Bool) (ps : List RunPass) (p : RunPass) : Prop :=
  ∃ k, ps[k]? = some p ∧ enabled p.id = true ∧ ∀ (j : Nat) (q : RunPass), j < k → ps[j]? = some q → enabled q.id = false

/-! ### Steps keep the pipeline states -/

/-- Same pipeline states and announced layouts. -/
def SamePipe (c d : Ctx) : Prop :=
  d.prev = c.prev ∧ d.curr = c.curr ∧ d.next = c.next ∧ d.nextImages = c.nextImages

theorem samePipe_refl (c : Ctx) : SamePipe c c := ⟨rfl, rfl, rfl, rfl⟩
theorem samePipe_trans {a b c : Ctx} (h : SamePipe a b) (h' : SamePipe b c) : SamePipe a c :=
  ⟨h'.1.trans h.1, h'.2.1.trans h.2.1, h'.2.2.1.trans h.2.2.1, h'.2.2.2.trans h.2.2.2⟩

theorem samePipe_barrier (env : Env) (r : Rec) (v : View) (i : Nat) (w : LayoutState) (f : Bool) :
    SamePipe r.ctx (r.viewBarrier env v i w f).ctx := by
  unfold Rec.viewBarrier Rec.imageBarrier
  simp only
  repeat' split
  all_goals exact ⟨rfl, rfl, rfl, rfl⟩

theorem samePipe_buffer (r : Rec) (b o s : Nat) (i w : AccessState) (f : Bool) :
    SamePipe r.ctx (r.bufferBarrier b o s i w f).ctx := by
  unfold Rec.bufferBarrier
  simp only
  repeat' split
  all_goals exact ⟨rfl, rfl, rfl, rfl⟩

theorem samePipe_final (env : Env) (r : Rec) (v : View) (l : Nat) : SamePipe r.ctx (r.finalBarrier env v l).ctx := by
  unfold Rec.finalBarrier
  split
  · exact samePipe_barrier _ _ _ _ _ _
  · exact samePipe_refl _

theorem samePipe_runImplicit (env : Env) (r : Rec) (v : View) : SamePipe r.ctx (r.runImplicit env v).ctx :=
  (runImplicit_lift env (fun r r' => SamePipe r.ctx r'.ctx) (fun _ => True) (fun _ => True)
    (fun r => samePipe_refl r.ctx) (fun _ _ _ h h' => samePipe_trans h h')
    (fun r w i wn f _ _ => samePipe_barrier env r w i wn f) (fun r c _ _ => samePipe_refl r.ctx)
    (fun r _ => ⟨rfl, rfl, rfl, rfl⟩) _ r v rfl trivial (fun _ _ _ _ _ _ _ => ⟨trivial, trivial⟩)).1

theorem samePipe_current (G : GraphSt) (c : Ctx) (v : View) : SamePipe c (getCurrentLayoutState G c v).2 := by
  unfold getCurrentLayoutState
  simp only
  repeat' split
  all_goals exact ⟨rfl, rfl, rfl, rfl⟩

theorem samePipe_recordImage (env : Env) (G : GraphSt) (index : Nat) (r r' : Rec) (a : Attachment)
    (h : recordImage env G index r a = some r') : SamePipe r.ctx r'.ctx := by
  unfold recordImage at h
  split at h
  · simp at h
  · rename_i v _
    have h1 := samePipe_runImplicit env r v
    simp only at h
    generalize r.runImplicit env v = r1 at *
    have hc : SamePipe r1.ctx ((if !a.isInput then (makeLayoutState Layout.undefined, r1.ctx)
        else getCurrentLayoutState G r1.ctx v : LayoutState × Ctx)).2 := by
      split
      · exact samePipe_refl _
      · exact samePipe_current _ _ _
    generalize (if !a.isInput then (makeLayoutState Layout.undefined, r1.ctx)
        else getCurrentLayoutState G r1.ctx v : LayoutState × Ctx) = cur at *
    have h2 := samePipe_trans h1 hc
    split at h
    · split at h
      · simp only [Option.some.injEq] at h
        subst h
        exact samePipe_trans h2 (samePipe_trans (samePipe_barrier env ⟨cur.2, r1.cmds⟩ v _ _ _)
          (samePipe_barrier env (Rec.emit _ _) v _ _ _))
      · simp only [Option.some.injEq] at h
        subst h
        exact samePipe_trans h2 (samePipe_barrier env ⟨cur.2, r1.cmds⟩ v _ _ _)
    · simp only [Option.some.injEq] at h
      subst h
      exact h1

theorem samePipe_recordBuffer (compute : Bool) (index : Nat) (r r' : Rec) (a : Attachment)
    (h : recordBuffer compute index r a = some r') : SamePipe r.ctx r'.ctx := by
  unfold recordBuffer at h
  split at h
  · split at h
    · simp at h
    · simp only at h
      split at h
      · simp only [Option.some.injEq] at h
        subst h
        exact samePipe_trans (samePipe_buffer r _ _ _ _ _ _) (samePipe_buffer (Rec.emit _ _) _ _ _ _ _ _)
      · simp only [Option.some.injEq] at h
        subst h
        exact samePipe_buffer r _ _ _ _ _ _
  · simp only [Option.some.injEq] at h
    subst h; exact samePipe_refl _

theorem samePipe_foldOpt {α : Type} (f : Rec → α → Option Rec)
    (hf : ∀ r r' a, f r a = some r' → SamePipe r.ctx r'.ctx) :
    ∀ (as : List α) (r r' : Rec), foldOpt f r as = some r' → SamePipe r.ctx r'.ctx := by
  intro as
  induction as with
  | nil => intro r r' h; simp only [foldOpt, Option.some.injEq] at h; subst h; exact samePipe_refl _
  | cons a as ih =>
    intro r r' h
    unfold foldOpt at h
    split at h
    · simp at h
    · rename_i r1 e
      exact samePipe_trans (hf _ _ _ e) (ih _ _ h)

theorem samePipe_prepare (env : Env) (G : GraphSt) (p : RunPass) (index : Nat) (r r' : Rec)
    (h : prepare env G p index r = some r') : SamePipe r.ctx r'.ctx := by
  unfold prepare at h
  split at h
  · simp at h
  · rename_i r1 e
    exact samePipe_trans
      (samePipe_foldOpt _ (fun r r' a h => samePipe_recordImage env G index r r' a h) _ _ _ e)
      (samePipe_foldOpt _ (fun r r' a h => samePipe_recordBuffer p.compute index r r' a h) _ _ _ h)

theorem samePipe_registerAll (p : RunPass) (r : Rec) : SamePipe r.ctx (registerAll p r).ctx := by
  unfold registerAll
  generalize p.implicitActions = l
  induction l generalizing r with
  | nil => exact samePipe_refl _
  | cons a l ih => exact samePipe_trans ⟨rfl, rfl, rfl, rfl⟩ (ih (r.register ⟨p.id, a.1, a.2⟩))

theorem samePipe_recordInto (env : Env) (G : GraphSt) (p : RunPass) (hp : KeepsPipeline p) (index : Nat)
    (f f' : Frame) (h : recordInto env G p index f = some f') : SamePipe f.recd.ctx f'.recd.ctx := by
  unfold recordInto at h
  split at h
  · split at h
    · simp only at h
      have hr : (if (!f.initialised p.id index) = true then f.initialise p index else f).recd = f.recd := by
        split <;> rfl
      rw [hr] at h
      split at h
      · simp at h
      · rename_i r e
        simp only [Option.some.injEq] at h
        subst h
        exact samePipe_trans (samePipe_prepare _ _ _ _ _ _ e)
          (samePipe_trans (hp index r) (samePipe_registerAll p _))
    · simp at h
  · simp only [Option.some.injEq] at h
    subst h
    exact samePipe_registerAll p _

/-! ### C18 -/

theorem firstEnabled_cons {en : Nat → Bool} {p q : RunPass} {ps : List RunPass} :
    FirstEnabled en (p :: ps) q ↔ (en p.id = true ∧ q = p) ∨ (en p.id = false ∧ FirstEnabled en ps q) := by
  constructor
  · rintro ⟨k, h1, h2, h3⟩
    cases k with
    | zero => simp at h1; subst h1; exact Or.inl ⟨h2, rfl⟩
    | succ k =>
      refine Or.inr ⟨h3 0 p (by omega) rfl, k, h1, h2, ?_⟩
      intro j x hj hx
      exact h3 (j + 1) x (by omega) hx
  · rintro (⟨h, rfl⟩ | ⟨h, k, h1, h2, h3⟩)
    · exact ⟨0, rfl, h, fun j _ hj => absurd hj (by omega)⟩
    · refine ⟨k + 1, h1, h2, ?_⟩
      intro j x hj hx
      cases j with
      | zero => simp at hx; subst hx; exact h
      | succ j => exact h3 j x (by omega) hx

theorem getNextState_cases (en : Nat → Bool) (s : AccessState) (ps : List RunPass) :
    (∀ q, FirstEnabled en ps q → getNextState en s ps = q.state)
    ∧ ((∀ q ∈ ps, en q.id = false) → getNextState en s ps = s) := by
  induction ps with
  | nil => exact ⟨fun q ⟨k, h, _⟩ => by simp at h, fun _ => rfl⟩
  | cons p ps ih =>
    unfold getNextState at *
    by_cases hp : en p.id = true
    · rw [List.find?_cons_of_pos (by simpa using hp)]
      refine ⟨?_, ?_⟩
      · intro q hq
        rcases firstEnabled_cons.1 hq with ⟨_, rfl⟩ | ⟨h, _⟩
        · rfl
        · rw [hp] at h; simp at h
      · intro h
        have := h p (by simp)
        rw [hp] at this; simp at this
    · rw [List.find?_cons_of_neg (by simpa using hp)]
      refine ⟨?_, ?_⟩
      · intro q hq
        rcases firstEnabled_cons.1 hq with ⟨h, _⟩ | ⟨_, h⟩
        · exact absurd h hp
        · exact ih.1 q h
      · intro h
        exact ih.2 fun q hq => h q (by simp [hq])

theorem announce_pipe (env : Env) (G : GraphSt) (p : RunPass) (next : List RunPass) (c : Ctx) :
    (announce env G p next c).prev = c.curr ∧ (announce env G p next c).curr = c.next
    ∧ (announce env G p next c).next = getNextState env.enabled p.state next := by
  unfold announce
  split
  · rename_i h
    rw [List.isEmpty_iff] at h
    subst h
    exact ⟨rfl, rfl, rfl⟩
  · exact ⟨rfl, rfl, rfl⟩

theorem loop_pipe (env : Env) (G : GraphSt) (index : Nat → Nat) :
    ∀ (ps : List RunPass), (∀ p ∈ ps, KeepsPipeline p) → ∀ (f : Frame) (k : Nat) (r : Rec),
    (∀ p rest, ps = p :: rest → env.enabled p.id = true → f.recd.ctx.next = p.state) →
    EntersAt env G index ps f k r →
    ∃ q, ps[k]? = some q ∧ env.enabled q.id = true ∧ r.ctx.curr = q.state
      ∧ r.ctx.next = getNextState env.enabled q.state (ps.drop (k + 1))
      ∧ (k = 0 → r.ctx.prev = f.recd.ctx.curr)
      ∧ (∀ j p, j + 1 = k → ps[j]? = some p → env.enabled p.id = true → r.ctx.prev = p.state)
      ∧ r.ctx.nextImages = (if (ps.drop (k + 1)).isEmpty then G.outputs.toMap else
          (gather env.sepDS env.enabled (q.layouts env.sepDS) (ps.drop (k + 1)) []).toMap) := by
  intro ps
  induction ps with
  | nil => intro _ f k r _ h; exact absurd h (by simp [EntersAt])
  | cons p next ih =>
    intro hk f k r hf h
    have hpk := hk p (by simp)
    obtain ⟨ha1, ha2, ha3⟩ := announce_pipe env G p next f.recd.ctx
    cases k with
    | zero =>
      obtain ⟨he, hr⟩ := h
      have hs := samePipe_prepare _ _ _ _ _ _ hr
      refine ⟨p, rfl, he, ?_, ?_, ?_, ?_, ?_⟩
      · rw [hs.2.1]; simp only [ha2]; exact hf p next rfl he
      · rw [hs.2.2.1]; simp only [ha3]; rfl
      · intro _; rw [hs.1]; exact ha1
      · intro j _ hj; omega
      · rw [hs.2.2.2]
        simp only [announce, List.drop_succ_cons, List.drop_zero]
        split <;> rfl
    | succ k =>
      obtain ⟨f', e, h'⟩ := h
      have hs := samePipe_recordInto env G p hpk _ _ _ e
      simp only at hs
      obtain ⟨q, h1, h2, h3, h4, h5, h6, h7⟩ := ih (fun x hx => hk x (by simp [hx])) f' k r (by
        intro n rest hn hen
        rw [hs.2.2.1]
        simp only [ha3]
        exact (getNextState_cases env.enabled p.state next).1 n
          ⟨0, by rw [hn]; rfl, hen, fun j _ hj => absurd hj (by omega)⟩) h'
      refine ⟨q, h1, h2, h3, h4, by omega, ?_, h7⟩
      intro j x hj hx hxe
      cases j with
      | zero =>
        have hk0 : k = 0 := by omega
        simp at hx
        subst hx
        rw [h5 hk0, hs.2.1]
        simp only [ha2]
        exact hf p next rfl hxe
      | succ j => exact h6 j x (by omega) hx hxe

theorem firstAnnounce_pipe (sepDS : Bool) (passes : List RunPass) (deps : List Ctx) :
    (firstAnnounce sepDS passes (startCtx deps)).curr = bottom ∧
    ∀ p rest, passes = p :: rest → (firstAnnounce sepDS passes (startCtx deps)).next = p.state := by
  have h0 : (startCtx deps).curr = bottom ∧ (startCtx deps).next = bottom := by
    unfold startCtx
    have : ∀ c : Ctx, c.curr = bottom ∧ c.next = bottom →
        (deps.foldl Ctx.addStates c).curr = bottom ∧ (deps.foldl Ctx.addStates c).next = bottom := by
      induction deps with
      | nil => intro c h; exact h
      | cons d ds ih => intro c h; exact ih _ h
    exact this _ ⟨rfl, rfl⟩
  unfold firstAnnounce
  split
  · exact ⟨h0.1, by simp⟩
  · refine ⟨h0.2, ?_⟩
    intro p rest e
    cases e
    rfl

/-- C18 (partial: the previous state is right only when the pass before is enabled). While the body of the k-th
pass is recorded, in any graph with any passes enabled: the current pipeline state is the one it declares; the next
one is the one declared by the first enabled pass after it, or its own when there is none; and if the pass just
before is enabled the previous state is the one that pass declares. -/
theorem pipeline_states_partial (env : Env) (G : GraphSt) (deps : List Ctx) (index : Nat → Nat)
    (passes : List RunPass) (hb : ∀ p ∈ passes, KeepsPipeline p) (ini : Nat → Nat → Bool) (log : List Event)
    (k : Nat) (r : Rec) (h : EntersAt env G index passes (frameStart env.sepDS deps passes ini log) k r) :
    ∃ q, passes[k]? = some q ∧ env.enabled q.id = true ∧ r.ctx.curr = q.state
      ∧ (∀ n, FirstEnabled env.enabled (passes.drop (k + 1)) n → r.ctx.next = n.state)
      ∧ ((∀ n ∈ passes.drop (k + 1), env.enabled n.id = false) → r.ctx.next = q.state)
      ∧ (∀ j p, j + 1 = k → passes[j]? = some p → env.enabled p.id = true → r.ctx.prev = p.state) := by
  obtain ⟨q, h1, h2, h3, h4, h5, h6, h7⟩ := loop_pipe env G index passes hb _ k r
    (fun p rest e _ => (firstAnnounce_pipe env.sepDS passes deps).2 p rest e) h
  refine ⟨q, h1, h2, h3, ?_, ?_, h6⟩
  · intro n hn; rw [h4]; exact (getNextState_cases _ _ _).1 n hn
  · intro hn; rw [h4]; exact (getNextState_cases _ _ _).2 hn

/-- C18 is false of the first pass: whatever the graph depends on (and `addStates` computes a previous state
from the dependencies), the first pass sees bottom of pipe as previous state. -/
theorem dependency_state_lost (env : Env) (G : GraphSt) (deps : List Ctx) (index : Nat → Nat)
    (passes : List RunPass) (hb : ∀ p ∈ passes, KeepsPipeline p) (ini : Nat → Nat → Bool) (log : List Event)
    (r : Rec) (h : EntersAt env G index passes (frameStart env.sepDS deps passes ini log) 0 r) :
    r.ctx.prev = ⟨0, Stage.bottomOfPipe⟩ := by
  obtain ⟨q, h1, h2, h3, h4, h5, h6, h7⟩ := loop_pipe env G index passes hb _ 0 r
    (fun p rest e _ => (firstAnnounce_pipe env.sepDS passes deps).2 p rest e) h
  rw [h5 rfl]
  exact (firstAnnounce_pipe env.sepDS passes deps).1

/-! ### C19 -/

/-- The two maps know a common layer of image `i`. -/
def Shares (m n : Images) (i : Nat) : Prop :=
  ∃ l, ((OMap.find m i).bind (OMap.find · l)).isSome ∧ ((OMap.find n i).bind (OMap.find · l)).isSome

theorem firstShared_spec (next : Images) : ∀ (cur : Images), Images.Ok cur →
    (∀ i m, firstShared next cur = some (i, m) → Shares cur next i
      ∧ ∃ c, OMap.find cur i = some c ∧ m = mergeRanges next i c)
    ∧ (firstShared next cur = none → ∀ i, ¬ Shares cur next i) := by
  intro cur
  induction cur with
  | nil => intro _; refine ⟨by simp [firstShared], fun _ i ⟨l, h, _⟩ => by simp [OMap.find] at h⟩
  | cons kw cur ih =>
    obtain ⟨k, w⟩ := kw
    intro hok
    have hok0 := hok.1
    unfold OMap.Ok at hok0
    simp only [List.map_cons, List.pairwise_cons] at hok0
    have hkw : OMap.find ((k, w) :: cur) k = some w := by simp [OMap.find]
    have hw : Layers.Ok w := hok.2 k w hkw
    have hne : ∀ i x, OMap.find cur i = some x → k ≠ i := by
      intro i x hx e
      subst e
      have : (OMap.find cur k).isSome := by rw [hx]; rfl
      have := OMap.find_isSome_iff.1 this
      have := hok0.1 k this
      omega
    have hrest : Images.Ok cur := by
      refine ⟨hok0.2, ?_⟩
      intro i n hn
      exact hok.2 i n (by simp only [OMap.find]; rw [if_neg (hne i n hn)]; exact hn)
    have ih' := ih hrest
    have hfind : ∀ i, k ≠ i → OMap.find ((k, w) :: cur) i = OMap.find cur i := by
      intro i h; simp only [OMap.find]; rw [if_neg h]
    unfold firstShared
    simp only
    by_cases he : (mergeRanges next k w).isEmpty = true
    · rw [if_pos he]
      have hno : ¬ Shares ((k, w) :: cur) next k := by
        rintro ⟨l, h1, h2⟩
        rw [hkw] at h1
        have := (mergeRanges_nonempty next k w hw.1).2 ⟨l, h1, h2⟩
        rw [he] at this
        simp at this
      refine ⟨?_, ?_⟩
      · intro i m hm
        obtain ⟨h1, c, h2, h3⟩ := ih'.1 i m hm
        have hki := hne i c h2
        refine ⟨?_, c, by rw [hfind i hki]; exact h2, h3⟩
        obtain ⟨l, h4, h5⟩ := h1
        exact ⟨l, by rw [hfind i hki]; exact h4, h5⟩
      · intro hn i hs
        by_cases hki : k = i
        · subst hki; exact hno hs
        · obtain ⟨l, h4, h5⟩ := hs
          rw [hfind i hki] at h4
          exact ih'.2 hn i ⟨l, h4, h5⟩
    · rw [if_neg he]
      have he' : (mergeRanges next k w).isEmpty = false := by simpa using he
      refine ⟨?_, by simp⟩
      intro i m hm
      simp only [Option.some.injEq, Prod.mk.injEq] at hm
      obtain ⟨rfl, rfl⟩ := hm
      obtain ⟨l, h1, h2⟩ := (mergeRanges_nonempty next k w hw.1).1 he'
      exact ⟨⟨l, by rw [hkw]; exact h1, h2⟩, w, hkw, rfl⟩

theorem images_del_ok {m : Images} (h : Images.Ok m) (i : Nat) : Images.Ok (OMap.del i m) := by
  refine ⟨OMap.ok_del h.1 i, ?_⟩
  intro j n hn
  rw [OMap.find_del h.1] at hn
  split at hn
  · simp at hn
  · exact h.2 j n hn

/-- Every announced entry is what some later enabled pass expects, for a subresource of the current pass; passes
before it in the list that share the image with the current pass are only possible if they also share another. -/
theorem gather_sound (sepDS : Bool) (en : Nat → Bool) : ∀ (ps : List RunPass) (cur res : Images),
    Images.Ok cur → Images.Ok res → (∀ i c, OMap.find cur i = some c → OMap.find res i = none) →
    ∀ i l m s, Images.at (gather sepDS en cur ps res) i l m = some s →
      Images.at res i l m = some s
      ∨ ∃ p ∈ ps, en p.id = true ∧ Images.at (p.layouts sepDS) i l m = some s ∧ (Images.at cur i l m).isSome := by
  intro ps
  induction ps with
  | nil => intro cur res _ _ _ i l m s h; exact Or.inl h
  | cons p ps ih =>
    intro cur res hcur hres hdis i l m s h
    unfold gather at h
    split at h
    · exact Or.inl h
    · split at h
      · rename_i hen
        split at h
        · rcases ih cur res hcur hres hdis i l m s h with h1 | ⟨x, hx, h1⟩
          · exact Or.inl h1
          · exact Or.inr ⟨x, by simp [hx], h1⟩
        · rename_i j mg hf
          obtain ⟨_, c, hc, rfl⟩ := (firstShared_spec (p.layouts sepDS) cur hcur).1 j _ hf
          have hcok := hcur.2 j c hc
          have hat : ∀ l m, Layers.at (mergeRanges (p.layouts sepDS) j c) l m
              = if (Layers.at c l m).isSome then Images.at (p.layouts sepDS) j l m else none :=
            fun l m => mergeRanges_at _ _ _ hcok l m
          have hmok : ∀ i n, OMap.find (OMap.put j (mergeRanges (p.layouts sepDS) j c) res) i = some n →
              i = j ∨ OMap.find res i = some n := by
            intro i n hn
            rw [OMap.find_put] at hn
            split at hn
            · rename_i e; exact Or.inl e.symm
            · exact Or.inr hn
          have key := ih (OMap.del j cur) (OMap.put j (mergeRanges (p.layouts sepDS) j c) res)
            (images_del_ok hcur j) ⟨OMap.ok_put hres.1 _ _, by
              intro i n hn
              rw [OMap.find_put] at hn
              split at hn
              · simp only [Option.some.injEq] at hn
                subst hn
                exact mergeRanges_ok _ _ _ hcok
              · exact hres.2 i n hn⟩ (by
              intro i x hx
              rw [OMap.find_del hcur.1] at hx
              split at hx
              · simp at hx
              · rename_i hji
                rw [OMap.find_put, if_neg hji]
                exact hdis i x hx) i l m s h
          rcases key with h1 | ⟨x, hx, h1, h2, h3⟩
          · rw [Images.at_eq, OMap.find_put] at h1
            split at h1
            · rename_i e
              subst e
              simp only [Option.bind_some, hat] at h1
              split at h1
              · rename_i hs
                refine Or.inr ⟨p, by simp, hen, h1, ?_⟩
                rw [Images.at_eq, hc]
                exact hs
              · simp at h1
            · left; rw [Images.at_eq]; exact h1
          · refine Or.inr ⟨x, by simp [hx], h1, h2, ?_⟩
            rw [Images.at_eq, OMap.find_del hcur.1] at h3
            split at h3
            · simp at h3
            · rw [Images.at_eq]; exact h3
      · rcases ih cur res hcur hres hdis i l m s h with h1 | ⟨x, hx, h1⟩
        · exact Or.inl h1
        · exact Or.inr ⟨x, by simp [hx], h1⟩

theorem gather_keeps (sepDS : Bool) (en : Nat → Bool) (i : Nat) : ∀ (ps : List RunPass) (cur res : Images),
    Images.Ok cur → (∀ p ∈ ps, en p.id = true → ¬ Shares cur (p.layouts sepDS) i) →
    OMap.find (gather sepDS en cur ps res) i = OMap.find res i := by
  intro ps
  induction ps with
  | nil => intro cur res _ _; rfl
  | cons p ps ih =>
    intro cur res hcur hno
    have hno' : ∀ q ∈ ps, en q.id = true → ¬ Shares cur (q.layouts sepDS) i :=
      fun q hq => hno q (by simp [hq])
    unfold gather
    split
    · rfl
    · split
      · rename_i hen
        split
        · exact ih cur res hcur hno'
        · rename_i j mg hf
          obtain ⟨hs, -⟩ := (firstShared_spec (p.layouts sepDS) cur hcur).1 j _ hf
          have hji : j ≠ i := by rintro rfl; exact hno p (by simp) hen hs
          rw [ih _ _ (images_del_ok hcur j) ?_, OMap.find_put, if_neg hji]
          rintro q hq hqe ⟨l, h1, h2⟩
          rw [OMap.find_del hcur.1, if_neg hji] at h1
          exact hno' q hq hqe ⟨l, h1, h2⟩
      · exact ih cur res hcur hno'

theorem gather_first (sepDS : Bool) (en : Nat → Bool) (i : Nat) (n : RunPass) (post : List RunPass)
    (hn : en n.id = true) : ∀ (pre : List RunPass) (cur res : Images), Images.Ok cur →
    (∀ p ∈ pre, en p.id = true → ¬ Shares cur (p.layouts sepDS) i) → Shares cur (n.layouts sepDS) i →
    (∀ j, Shares cur (n.layouts sepDS) j → j = i) → ∀ l m,
    Images.at (gather sepDS en cur (pre ++ n :: post) res) i l m
      = if (Images.at cur i l m).isSome then Images.at (n.layouts sepDS) i l m else none := by
  intro pre
  induction pre with
  | nil =>
    intro cur res hcur _ hs hone l m
    have hne : cur.isEmpty ≠ true := by
      intro h
      rw [List.isEmpty_iff] at h
      subst h
      obtain ⟨l, h1, _⟩ := hs
      simp [OMap.find] at h1
    simp only [List.nil_append]
    unfold gather
    rw [if_neg hne, if_pos hn]
    have hf := firstShared_spec (n.layouts sepDS) cur hcur
    cases e : firstShared (n.layouts sepDS) cur with
    | none => exact absurd hs (hf.2 e i)
    | some jm =>
      obtain ⟨j, mg⟩ := jm
      obtain ⟨h1, c, hc, rfl⟩ := hf.1 j mg e
      have := hone j h1
      subst this
      simp only
      rw [Images.at_eq, gather_keeps sepDS en j post _ _ (images_del_ok hcur j) ?_, OMap.find_put, if_pos rfl]
      · simp only [Option.bind_some]
        have hj : Images.at cur j l m = Layers.at c l m := by rw [Images.at_eq, hc]; rfl
        rw [mergeRanges_at _ _ _ (hcur.2 j c hc), hj]
      · rintro q _ _ ⟨l, h1, h2⟩
        rw [OMap.find_del hcur.1, if_pos rfl] at h1
        simp at h1
  | cons p pre ih =>
    intro cur res hcur hno hs hone l m
    have hno' : ∀ q ∈ pre, en q.id = true → ¬ Shares cur (q.layouts sepDS) i :=
      fun q hq => hno q (by simp [hq])
    have hne : cur.isEmpty ≠ true := by
      intro h
      rw [List.isEmpty_iff] at h
      subst h
      obtain ⟨l, h1, _⟩ := hs
      simp [OMap.find] at h1
    rw [List.cons_append]
    unfold gather
    rw [if_neg hne]
    split
    · rename_i hen
      split
      · exact ih cur res hcur hno' hs hone l m
      · rename_i j mg hf
        obtain ⟨hsj, -⟩ := (firstShared_spec (p.layouts sepDS) cur hcur).1 j _ hf
        have hji : j ≠ i := by rintro rfl; exact hno p (by simp) hen hsj
        have hfi : OMap.find (OMap.del j cur) i = OMap.find cur i := by rw [OMap.find_del hcur.1, if_neg hji]
        have hsub : ∀ x k, Shares (OMap.del j cur) x k → Shares cur x k := by
          rintro x k ⟨l, h1, h2⟩
          rw [OMap.find_del hcur.1] at h1
          split at h1
          · simp at h1
          · exact ⟨l, h1, h2⟩
        have := ih (OMap.del j cur) (OMap.put j mg res) (images_del_ok hcur j)
          (fun q hq hqe hx => hno' q hq hqe (hsub _ _ hx))
          (by obtain ⟨l, h1, h2⟩ := hs; exact ⟨l, by rw [hfi]; exact h1, h2⟩)
          (fun k hk => hone k (hsub _ _ hk)) l m
        rw [this, Images.at_eq, Images.at_eq, Images.at_eq, hfi]
    · exact ih cur res hcur hno' hs hone l m

/-! What the constructor's map of a pass knows, in terms of its attachments. -/

/-- The view covers the subresource. -/
def Covers' (v : View) (i l m : Nat) : Prop :=
  v.image.id = i ∧ (getVirtualRange v.image v.viewType v.range).Has l m

instance (v : View) (i l m : Nat) : Decidable (Covers' v i l m) := by unfold Covers'; infer_instance

/-- The view covers the layer. -/
def CoversLayer (v : View) (i l : Nat) : Prop :=
  v.image.id = i ∧ (getVirtualRange v.image v.viewType v.range).baseLayer ≤ l
    ∧ l < (getVirtualRange v.image v.viewType v.range).baseLayer + (getVirtualRange v.image v.viewType v.range).layers

theorem covers_iff (v : View) (i l m : Nat) : Covers' v i l m ↔
    v.image.id = i ∧ ∃ sub, Designates v.image v.viewType v.range sub ∧ sub.Has l m := by
  constructor
  · rintro ⟨h1, h2⟩; exact ⟨h1, _, virtual_designates _ _ _, h2⟩
  · rintro ⟨h1, sub, hd, h2⟩; exact ⟨h1, (hd.has_iff l m).1 h2⟩

theorem coversLayer_iff (v : View) (i l : Nat) : CoversLayer v i l ↔
    v.image.id = i ∧ ∃ sub, Designates v.image v.viewType v.range sub
      ∧ sub.baseLayer ≤ l ∧ l < sub.baseLayer + sub.layers := by
  constructor
  · rintro ⟨h1, h2, h3⟩; exact ⟨h1, _, virtual_designates _ _ _, h2, h3⟩
  · rintro ⟨h1, sub, hd, h2, h3⟩
    have h' := virtual_designates v.image v.viewType v.range
    refine ⟨h1, ?_⟩
    by_cases hc : v.viewType = .d3 ∧ (v.range.levels = 1 ∨ v.range.levels = v.image.mipLevels)
    · have e1 := hd.slices hc.1 hc.2
      have e2 := h'.slices hc.1 hc.2
      omega
    · have e1 := hd.plain hc
      have e2 := h'.plain hc
      omega

/-- The views a pass declares, in order, with the state expected. -/
def declared (sepDS : Bool) (p : RunPass) : List (View × LayoutState) :=
  p.images.flatMap fun a => a.img.views.map fun v => (v, expects sepDS p a)

theorem layouts_eq (sepDS : Bool) (p : RunPass) :
    p.layouts sepDS = (declared sepDS p).foldl (fun m vs => Images.set m vs.1 vs.2) [] := by
  unfold RunPass.layouts declared
  generalize ([] : Images) = m0
  generalize p.images = as
  induction as generalizing m0 with
  | nil => rfl
  | cons a as ih =>
    rw [List.foldl_cons, ih, List.flatMap_cons, List.foldl_append, List.foldl_map]
    rfl

theorem setFold_at (ds : List (View × LayoutState)) (m0 : Images) (i l m : Nat) :
    Images.at (ds.foldl (fun m vs => Images.set m vs.1 vs.2) m0) i l m
      = match ds.reverse.find? (fun vs => decide (Covers' vs.1 i l m)) with
        | some vs => some vs.2
        | none => Images.at m0 i l m := by
  rw [← List.reverse_reverse ds]
  generalize ds.reverse = es
  rw [List.reverse_reverse]
  induction es with
  | nil => rfl
  | cons e es ih =>
    rw [List.reverse_cons, List.foldl_append]
    simp only [List.foldl_cons, List.foldl_nil]
    rw [images_set_at, ih]
    by_cases h : Covers' e.1 i l m
    · rw [if_pos ⟨h.1.symm, h.2⟩, List.find?_cons_of_pos (by simpa using h)]
    · rw [if_neg (fun hx => h ⟨hx.1.symm, hx.2⟩), List.find?_cons_of_neg (by simpa using h)]

theorem addRange_layer (m : Layers) (r : Range) (s : LayoutState) (l : Nat) :
    (OMap.find (addRange m r s) l).isSome ↔
      (r.baseLayer ≤ l ∧ l < r.baseLayer + r.layers) ∨ (OMap.find m l).isSome := by
  unfold addRange
  generalize r.layers = n
  induction n with
  | zero => simp; omega
  | succ n ih =>
    rw [List.range_succ, List.foldl_append]
    simp only [List.foldl_cons, List.foldl_nil]
    rw [OMap.find_put]
    by_cases h : r.baseLayer + n = l
    · rw [if_pos h]
      simp only [Option.isSome_some, true_iff]
      left; omega
    · rw [if_neg h, ih]
      constructor
      · rintro (h1 | h1)
        · left; omega
        · exact Or.inr h1
      · rintro (h1 | h1)
        · left; omega
        · exact Or.inr h1

theorem setFold_layer (ds : List (View × LayoutState)) (m0 : Images) (i l : Nat) :
    ((OMap.find (ds.foldl (fun m vs => Images.set m vs.1 vs.2) m0) i).bind (OMap.find · l)).isSome
      ↔ (∃ vs ∈ ds, CoversLayer vs.1 i l) ∨ ((OMap.find m0 i).bind (OMap.find · l)).isSome := by
  induction ds generalizing m0 with
  | nil => simp
  | cons d ds ih =>
    rw [List.foldl_cons, ih]
    have : ((OMap.find (Images.set m0 d.1 d.2) i).bind (OMap.find · l)).isSome
        ↔ CoversLayer d.1 i l ∨ ((OMap.find m0 i).bind (OMap.find · l)).isSome := by
      unfold Images.set CoversLayer
      rw [OMap.find_put]
      by_cases h : d.1.image.id = i
      · subst h
        rw [if_pos rfl]
        simp only [Option.bind_some, addRange_layer, true_and]
        cases OMap.find m0 d.1.image.id <;> simp [OMap.find]
      · rw [if_neg h]; simp [h]
    rw [this]
    simp only [List.mem_cons, exists_eq_or_imp]
    constructor
    · rintro (h | h | h)
      · exact Or.inl (Or.inr h)
      · exact Or.inl (Or.inl h)
      · exact Or.inr h
    · rintro ((h | h) | h)
      · exact Or.inr (Or.inl h)
      · exact Or.inl h
      · exact Or.inr (Or.inr h)

theorem mem_declared {sepDS : Bool} {p : RunPass} {v : View} {s : LayoutState} :
    (v, s) ∈ declared sepDS p ↔ ∃ a ∈ p.images, v ∈ a.img.views ∧ s = expects sepDS p a := by
  unfold declared
  simp only [List.mem_flatMap, List.mem_map, Prod.mk.injEq]
  constructor
  · rintro ⟨a, ha, w, hw, rfl, rfl⟩; exact ⟨a, ha, hw, rfl⟩
  · rintro ⟨a, ha, hw, rfl⟩; exact ⟨a, ha, v, hw, rfl, rfl⟩

theorem layouts_layer (sepDS : Bool) (p : RunPass) (i l : Nat) :
    ((OMap.find (p.layouts sepDS) i).bind (OMap.find · l)).isSome ↔ UsesLayer p i l := by
  rw [layouts_eq, setFold_layer]
  simp only [OMap.find, Option.bind_none, Option.isSome_none, Bool.false_eq_true, or_false]
  constructor
  · rintro ⟨⟨v, s⟩, h, hc⟩
    obtain ⟨a, ha, hv, _⟩ := mem_declared.1 h
    exact ⟨a, ha, v, hv, (coversLayer_iff v i l).1 hc⟩
  · rintro ⟨a, ha, v, hv, hc⟩
    exact ⟨(v, expects sepDS p a), mem_declared.2 ⟨a, ha, hv, rfl⟩, (coversLayer_iff v i l).2 hc⟩

theorem layouts_at_sound {sepDS : Bool} {p : RunPass} {i l m : Nat} {s : LayoutState}
    (h : Images.at (p.layouts sepDS) i l m = some s) : ∃ a, UsesIn p a i l m ∧ s = expects sepDS p a := by
  rw [layouts_eq, setFold_at] at h
  split at h
  · rename_i vs hvs
    simp only [Option.some.injEq] at h
    subst h
    have hm := List.mem_of_find?_eq_some hvs
    have hc := List.find?_some hvs
    simp only [decide_eq_true_eq] at hc
    rw [List.mem_reverse] at hm
    obtain ⟨a, ha, hv, hs⟩ := mem_declared.1 (show (vs.1, vs.2) ∈ _ from hm)
    exact ⟨a, ⟨ha, vs.1, hv, (covers_iff _ _ _ _).1 hc⟩, hs⟩
  · simp [Images.at, OMap.find] at h

theorem layouts_at_complete {sepDS : Bool} {p : RunPass} {a : Attachment} {i l m : Nat} (h : UsesIn p a i l m) :
    ∃ b, UsesIn p b i l m ∧ Images.at (p.layouts sepDS) i l m = some (expects sepDS p b) := by
  cases e : Images.at (p.layouts sepDS) i l m with
  | some s => obtain ⟨b, hb, rfl⟩ := layouts_at_sound e; exact ⟨b, hb, rfl⟩
  | none =>
    rw [layouts_eq, setFold_at] at e
    split at e
    · simp at e
    · rename_i hf
      obtain ⟨ha, v, hv, hc⟩ := h
      have := List.find?_eq_none.1 hf (v, expects sepDS p a)
        (by rw [List.mem_reverse]; exact mem_declared.2 ⟨a, ha, hv, rfl⟩)
      simp [(covers_iff _ _ _ _).2 hc] at this

theorem shares_iff (sepDS : Bool) (p q : RunPass) (i : Nat) :
    Shares (p.layouts sepDS) (q.layouts sepDS) i ↔ Share p q i := by
  unfold Shares Share
  simp only [layouts_layer]

/-- C19, soundness: every layout announced to the body of the k-th pass (not the last one) is one which a later
enabled pass declares for that subresource, and the subresource is attached to the k-th pass too. -/
theorem announced_is_wanted (env : Env) (G : GraphSt) (deps : List Ctx) (index : Nat → Nat)
    (passes : List RunPass) (hb : ∀ p ∈ passes, KeepsPipeline p) (ini : Nat → Nat → Bool) (log : List Event)
    (k : Nat) (r : Rec) (h : EntersAt env G index passes (frameStart env.sepDS deps passes ini log) k r)
    (hlast : k + 1 < passes.length) (i l m : Nat) (s : LayoutState) (hs : r.ctx.nextImages.at i l m = some s) :
    ∃ q n a b, passes[k]? = some q ∧ n ∈ passes.drop (k + 1) ∧ env.enabled n.id = true
      ∧ UsesIn q a i l m ∧ UsesIn n b i l m
      ∧ s = ⟨b.getImageLayout env.sepDS, ⟨b.getAccessMask, b.getPipelineStageFlags n.compute⟩⟩ := by
  obtain ⟨q, h1, _, _, _, _, _, h7⟩ := loop_pipe env G index passes hb _ k r
    (fun p rest e _ => (firstAnnounce_pipe env.sepDS passes deps).2 p rest e) h
  rw [h7, if_neg, toMap_at] at hs
  · rcases gather_sound env.sepDS env.enabled _ _ [] (layouts_ok env.sepDS q) images_ok_nil
      (by intro i c _; rfl) i l m s hs with h8 | ⟨n, hn, hne, h8, h9⟩
    · simp [Images.at, OMap.find] at h8
    · obtain ⟨b, hb, rfl⟩ := layouts_at_sound h8
      obtain ⟨t, ht⟩ := Option.isSome_iff_exists.1 h9
      obtain ⟨a, ha, _⟩ := layouts_at_sound ht
      exact ⟨q, n, a, b, h1, hn, hne, ha, hb, rfl⟩
  · rw [List.isEmpty_iff, List.drop_eq_nil_iff]
    omega

/-- C19 (partial: the next user shares no other image with the pass; and "uses the image" is decided on layers
only). While the body of the k-th pass is recorded, for an image it shares with a later enabled pass `n`, no
enabled pass between them sharing it, every subresource of it that both attach is announced with the layout `n`
declares. -/
theorem announced_next_partial (env : Env) (G : GraphSt) (deps : List Ctx) (index : Nat → Nat)
    (passes : List RunPass) (hb : ∀ p ∈ passes, KeepsPipeline p) (ini : Nat → Nat → Bool) (log : List Event)
    (k : Nat) (r : Rec) (h : EntersAt env G index passes (frameStart env.sepDS deps passes ini log) k r)
    (q n : RunPass) (hq : passes[k]? = some q) (pre post : List RunPass)
    (hn : passes.drop (k + 1) = pre ++ n :: post) (hen : env.enabled n.id = true) (i : Nat)
    (hshare : Share q n i) (hfirst : ∀ p ∈ pre, env.enabled p.id = true → ¬ Share q p i)
    (honly : ∀ j, Share q n j → j = i)
    (l m : Nat) (a b : Attachment) (ha : UsesIn q a i l m) (hbm : UsesIn n b i l m)
    (hagree : ∀ b', UsesIn n b' i l m → expects env.sepDS n b' = expects env.sepDS n b) :
    r.ctx.nextImages.at i l m
      = some ⟨b.getImageLayout env.sepDS, ⟨b.getAccessMask, b.getPipelineStageFlags n.compute⟩⟩ := by
  obtain ⟨q', h1, _, _, _, _, _, h7⟩ := loop_pipe env G index passes hb _ k r
    (fun p rest e _ => (firstAnnounce_pipe env.sepDS passes deps).2 p rest e) h
  rw [hq] at h1
  cases h1
  rw [h7, if_neg (by rw [hn]; simp), toMap_at, hn,
    gather_first env.sepDS env.enabled i n post hen pre _ _ (layouts_ok env.sepDS q)
      (fun p hp he hs => hfirst p hp he ((shares_iff env.sepDS q p i).1 hs)) ((shares_iff env.sepDS q n i).2 hshare)
      (fun j hj => honly j ((shares_iff env.sepDS q n j).1 hj))]
  obtain ⟨a', _, ha'⟩ := layouts_at_complete (sepDS := env.sepDS) ha
  obtain ⟨b', hb', hb''⟩ := layouts_at_complete (sepDS := env.sepDS) hbm
  rw [ha', if_pos (by rfl), hb'', hagree b' hb']
  rfl

/-- C19: an image no later enabled pass shares has no announced layout while the body of a pass which isn't the
last is recorded (the lookup then falls back to the declared outputs, `next_lookup`); the last pass is announced
the declared outputs. -/
theorem announced_nothing (env : Env) (G : GraphSt) (deps : List Ctx) (index : Nat → Nat)
    (passes : List RunPass) (hb : ∀ p ∈ passes, KeepsPipeline p) (ini : Nat → Nat → Bool) (log : List Event)
    (k : Nat) (r : Rec) (h : EntersAt env G index passes (frameStart env.sepDS deps passes ini log) k r)
    (q : RunPass) (hq : passes[k]? = some q) (i : Nat) :
    (k + 1 = passes.length → ∀ l m, r.ctx.nextImages.at i l m = Images.at G.outputs i l m)
    ∧ (k + 1 < passes.length → (∀ n ∈ passes.drop (k + 1), env.enabled n.id = true → ¬ Share q n i) →
        ∀ l m, r.ctx.nextImages.at i l m = none) := by
  obtain ⟨q', h1, _, _, _, _, _, h7⟩ := loop_pipe env G index passes hb _ k r
    (fun p rest e _ => (firstAnnounce_pipe env.sepDS passes deps).2 p rest e) h
  rw [hq] at h1
  cases h1
  refine ⟨?_, ?_⟩
  · intro hk l m
    rw [h7, if_pos (by rw [List.isEmpty_iff, List.drop_eq_nil_iff]; omega), toMap_at]
  · intro hk hno l m
    rw [h7, if_neg (by rw [List.isEmpty_iff, List.drop_eq_nil_iff]; omega), toMap_at, Images.at_eq,
      gather_keeps env.sepDS env.enabled i _ _ _ (layouts_ok env.sepDS q)
        (fun p hp he hs => hno p hp he ((shares_iff env.sepDS q p i).1 hs))]
    rfl

/-- C19, what a body is told (`RunnablePass::getNextLayoutState`) of a view of its own when the next enabled pass sharing
the image expects every subresource of the view in one layout: that layout. Partial as `announced_next_partial`. -/
theorem told_next_partial (env : Env) (G : GraphSt) (deps : List Ctx) (index : Nat → Nat)
    (passes : List RunPass) (hb : ∀ p ∈ passes, KeepsPipeline p) (ini : Nat → Nat → Bool) (log : List Event)
    (k : Nat) (r : Rec) (h : EntersAt env G index passes (frameStart env.sepDS deps passes ini log) k r)
    (q n : RunPass) (hq : passes[k]? = some q) (pre post : List RunPass)
    (hn : passes.drop (k + 1) = pre ++ n :: post) (hen : env.enabled n.id = true)
    (v : View) (sub : Range) (hv : Designates v.image v.viewType v.range sub) (hne : sub.NonEmpty)
    (hfirst : ∀ p ∈ pre, env.enabled p.id = true → ¬ Share q p v.image.id)
    (honly : ∀ j, Share q n j → j = v.image.id)
    (a : Attachment) (ha : a ∈ q.images) (hva : v ∈ a.img.views)
    (s : LayoutState) (hs : s.layout ≠ Layout.undefined)
    (hall : ∀ l m, sub.Has l m → (∃ b, UsesIn n b v.image.id l m)
      ∧ ∀ b, UsesIn n b v.image.id l m → expects env.sepDS n b = s) :
    (getNextLayoutState env.sepDS G r.ctx q v).layout = s.layout := by
  have hex : sub.Has sub.baseLayer sub.baseMip := by unfold Range.NonEmpty at hne; unfold Range.Has; omega
  have hu : ∀ l m, sub.Has l m → UsesIn q a v.image.id l m := fun l m hl => ⟨ha, v, hva, rfl, sub, hv, hl⟩
  have hat : ∀ l m, sub.Has l m → r.ctx.nextImages.at v.image.id l m = some s := by
    intro l m hl
    obtain ⟨⟨b, hbu⟩, hag⟩ := hall l m hl
    have hsh : Share q n v.image.id := by
      obtain ⟨_, w, hw, he, t, ht, h1, h2, _, _⟩ := hbu
      refine ⟨l, ⟨a, ha, v, hva, rfl, sub, hv, ?_⟩, ⟨b, ‹_›, w, hw, he, t, ht, h1, h2⟩⟩
      exact ⟨hl.1, hl.2.1⟩
    have := announced_next_partial env G deps index passes hb ini log k r h q n hq pre post hn hen v.image.id hsh hfirst
      honly l m a b (hu l m hl) hbu (fun b' hb' => by rw [hag b' hb', hag b hbu])
    rw [this]
    exact congrArg some (hag b hbu)
  have hl : (r.ctx.nextImages.getState v.image v.viewType v.range).layout = s.layout := by
    apply get_uniform_layout r.ctx.nextImages v.image v.viewType v.range sub hv s.layout
    · exact ⟨_, _, hex, by rw [hat _ _ hex]; rfl⟩
    · intro l m t hl ht
      rw [hat l m hl] at ht
      cases ht; rfl
  unfold getNextLayoutState
  simp only [hl, if_neg hs]

/-- C19, what a body is told (`RunnablePass::getNextLayoutState`) of an image no later enabled pass shares: the declared
output layout. -/
theorem told_output (env : Env) (G : GraphSt) (deps : List Ctx) (index : Nat → Nat)
    (passes : List RunPass) (hb : ∀ p ∈ passes, KeepsPipeline p) (ini : Nat → Nat → Bool) (log : List Event)
    (k : Nat) (r : Rec) (h : EntersAt env G index passes (frameStart env.sepDS deps passes ini log) k r)
    (q : RunPass) (hq : passes[k]? = some q) (v : View) (sub : Range) (hv : Designates v.image v.viewType v.range sub)
    (hno : ∀ n ∈ passes.drop (k + 1), env.enabled n.id = true → ¬ Share q n v.image.id)
    (x : Nat) (hx : x ≠ Layout.undefined) (hne : sub.NonEmpty)
    (hout : ∀ l m, sub.Has l m → (Images.at G.outputs v.image.id l m).map (·.layout) = some x) :
    (getNextLayoutState env.sepDS G r.ctx q v).layout = x := by
  obtain ⟨h1, h2⟩ := announced_nothing env G deps index passes hb ini log k r h q hq v.image.id
  have hex : sub.Has sub.baseLayer sub.baseMip := by unfold Range.NonEmpty at hne; unfold Range.Has; omega
  have uni : ∀ (M : LayoutMap), (∀ l m, M.at v.image.id l m = Images.at G.outputs v.image.id l m) →
      (M.getState v.image v.viewType v.range).layout = x := by
    intro M hM
    apply get_uniform_layout M v.image v.viewType v.range sub hv x
    · refine ⟨_, _, hex, ?_⟩
      have := hout _ _ hex
      rw [hM]
      cases hc : Images.at G.outputs v.image.id sub.baseLayer sub.baseMip with
      | none => rw [hc] at this; cases this
      | some t => rfl
    · intro l m t hl ht
      have := hout l m hl
      rw [hM] at ht
      rw [ht] at this
      exact Option.some.inj this
  have ho := uni G.outputs.toMap (fun l m => toMap_at ..)
  have hlen : k < passes.length := (List.getElem?_eq_some_iff.1 hq).1
  unfold getNextLayoutState
  by_cases hk : k + 1 = passes.length
  · have := uni r.ctx.nextImages (fun l m => h1 hk l m)
    simp only [this, if_neg hx]
  · have := (get_unknown_is_undefined r.ctx.nextImages v.image v.viewType v.range sub hv
      (fun l m _ => h2 (by omega) hno l m)).1
    simp only [this, if_true, ho, if_neg hx]

theorem entersAt_head {env : Env} {G : GraphSt} {index : Nat → Nat} {p : RunPass} {next : List RunPass} {f : Frame}
    {α : Type} (φ : Rec → α) (x : α) (he : env.enabled p.id = true)
    (h : (prepare env G p (index p.id) { f.recd with ctx := announce env G p next f.recd.ctx }).map φ = some x) :
    ∃ r, EntersAt env G index (p :: next) f 0 r ∧ φ r = x := by
  rw [Option.map_eq_some_iff] at h
  obtain ⟨r, h1, h2⟩ := h
  exact ⟨r, ⟨he, h1⟩, h2⟩

theorem entersAt_second {env : Env} {G : GraphSt} {index : Nat → Nat} {p q : RunPass} {next : List RunPass}
    {f : Frame} {α : Type} (φ : Rec → α) (x : α) (he : env.enabled q.id = true)
    (h : ((recordInto env G p (index p.id)
        { f with recd := { f.recd with ctx := announce env G p (q :: next) f.recd.ctx } }).bind fun f' =>
      (prepare env G q (index q.id) { f'.recd with ctx := announce env G q next f'.recd.ctx }).map φ) = some x) :
    ∃ r, EntersAt env G index (p :: q :: next) f 1 r ∧ φ r = x := by
  rw [Option.bind_eq_some_iff] at h
  obtain ⟨f', h0, h⟩ := h
  rw [Option.map_eq_some_iff] at h
  obtain ⟨r, h1, h2⟩ := h
  exact ⟨r, ⟨f', h0, he, h1⟩, h2⟩

/-- Two images written by one pass and sampled by the next. -/
def yImg (i : Nat) : Image := ⟨i, 37, 1, 1, 64, 64, 1⟩
def yView (i : Nat) : View := ⟨10 + i, yImg i, .d2, 37, ⟨Aspect.color, 0, 1, 0, 1⟩⟩
def yWriter : RunPass :=
  ⟨1, 1, true, ⟨Access.shaderRead, Stage.computeShader⟩,
    [ImageAdder.outputStorage.attach 1 0 [yView 1], ImageAdder.outputStorage.attach 1 1 [yView 2]], [], [],
    fun _ r => r⟩
def yReader : RunPass :=
  ⟨2, 1, false, ⟨Access.shaderRead, Stage.fragmentShader⟩,
    [ImageAdder.sampled.attach 2 0 [yView 1], ImageAdder.sampled.attach 2 1 [yView 2]], [], [], fun _ r => r⟩

/-- C19 is false of two images shared with the same next pass: only the first one's layout is announced. -/
theorem second_shared_image_not_announced : ∃ r,
    EntersAt ⟨false, fun _ => true⟩ xG (fun _ => 0) [yWriter, yReader]
      (frameStart false [] [yWriter, yReader] (fun _ _ => false) []) 0 r
    ∧ (r.ctx.nextImages.at 1 0 0).map (·.layout) = some Layout.shaderReadOnly
    ∧ r.ctx.nextImages.at 2 0 0 = none := by
  obtain ⟨r, h, e⟩ := entersAt_head (env := ⟨false, fun _ => true⟩) (G := xG) (index := fun _ => 0) (p := yWriter)
    (next := [yReader]) (f := frameStart false [] [yWriter, yReader] (fun _ _ => false) [])
    (fun r => ((r.ctx.nextImages.at 1 0 0).map (·.layout), r.ctx.nextImages.at 2 0 0))
    (some Layout.shaderReadOnly, none) rfl (by decide)
  simp only [Prod.mk.injEq] at e
  exact ⟨r, h, e⟩

/-- An image with two levels: written at level 1, sampled at level 0 by the next pass, at level 1 by a third. -/
def zImg : Image := ⟨1, 37, 2, 1, 64, 64, 1⟩
def zView (m : Nat) : View := ⟨20 + m, zImg, .d2, 37, ⟨Aspect.color, m, 1, 0, 1⟩⟩
def zPass (id m : Nat) : RunPass :=
  ⟨id, 1, false, ⟨Access.shaderRead, Stage.fragmentShader⟩, [ImageAdder.sampled.attach id 0 [zView m]], [], [],
    fun _ r => r⟩
def zWriter : RunPass :=
  ⟨1, 1, true, ⟨Access.shaderRead, Stage.computeShader⟩, [ImageAdder.outputStorage.attach 1 0 [zView 1]], [], [],
    fun _ r => r⟩

/-- C19 is false of levels: a pass that uses another level of the same layer hides the next user of the level. -/
theorem other_level_hides_next_user : ∃ r,
    EntersAt ⟨false, fun _ => true⟩ xG (fun _ => 0) [zWriter, zPass 2 0, zPass 3 1]
      (frameStart false [] [zWriter, zPass 2 0, zPass 3 1] (fun _ _ => false) []) 0 r
    ∧ r.ctx.nextImages.at 1 0 1 = none := by
  exact entersAt_head (env := ⟨false, fun _ => true⟩) (G := xG) (index := fun _ => 0) (p := zWriter)
    (next := [zPass 2 0, zPass 3 1])
    (f := frameStart false [] [zWriter, zPass 2 0, zPass 3 1] (fun _ _ => false) [])
    (fun r => r.ctx.nextImages.at 1 0 1) none rfl (by decide)

/-- C18 is false after a disabled pass: the previous state is then the pass's own, not the one of the (enabled)
pass that ran before, nor the one of the disabled pass. -/
theorem previous_state_after_disabled : ∃ r,
    EntersAt ⟨false, fun i => i != 2⟩ xG (fun _ => 0) [zWriter, zPass 2 0, zPass 3 1]
      (frameStart false [] [zWriter, zPass 2 0, zPass 3 1] (fun _ _ => false) []) 2 r
    ∧ r.ctx.prev = (zPass 3 1).state ∧ r.ctx.prev ≠ zWriter.state := by
  have h : (((recordInto ⟨false, fun i => i != 2⟩ xG zWriter 0
      { (frameStart false [] [zWriter, zPass 2 0, zPass 3 1] (fun _ _ => false) []) with
        recd := { (frameStart false [] [zWriter, zPass 2 0, zPass 3 1] (fun _ _ => false) []).recd with
          ctx := announce ⟨false, fun i => i != 2⟩ xG zWriter [zPass 2 0, zPass 3 1]
            (frameStart false [] [zWriter, zPass 2 0, zPass 3 1] (fun _ _ => false) []).recd.ctx } }).bind fun f' =>
      (recordInto ⟨false, fun i => i != 2⟩ xG (zPass 2 0) 0
        { f' with recd := { f'.recd with
            ctx := announce ⟨false, fun i => i != 2⟩ xG (zPass 2 0) [zPass 3 1] f'.recd.ctx } }).bind fun f' =>
      (prepare ⟨false, fun i => i != 2⟩ xG (zPass 3 1) 0
        { f'.recd with ctx := announce ⟨false, fun i => i != 2⟩ xG (zPass 3 1) [] f'.recd.ctx }).map
          fun r => r.ctx.prev)) = some (zPass 3 1).state := by decide
  rw [Option.bind_eq_some_iff] at h
  obtain ⟨f1, h1, h⟩ := h
  rw [Option.bind_eq_some_iff] at h
  obtain ⟨f2, h2, h⟩ := h
  rw [Option.map_eq_some_iff] at h
  obtain ⟨r, h3, h4⟩ := h
  exact ⟨r, ⟨f1, h1, f2, h2, rfl, h3⟩, h4, by rw [h4]; decide⟩

/-- Non-vacuity of `pipeline_states_partial` and `announced_is_wanted`: both passes of the example are entered. -/
example : ∃ r, EntersAt ⟨false, fun _ => true⟩ xG (fun _ => 0) [zWriter, zPass 2 1]
    (frameStart false [] [zWriter, zPass 2 1] (fun _ _ => false) []) 0 r
    ∧ (r.ctx.nextImages.at 1 0 1).map (·.layout) = some Layout.shaderReadOnly :=
  entersAt_head (env := ⟨false, fun _ => true⟩) (G := xG) (index := fun _ => 0) (p := zWriter)
    (next := [zPass 2 1]) (f := frameStart false [] [zWriter, zPass 2 1] (fun _ _ => false) [])
    (fun r => (r.ctx.nextImages.at 1 0 1).map (·.layout)) _ rfl (by decide)

example : ∃ r, EntersAt ⟨false, fun _ => true⟩ xG (fun _ => 0) [zWriter, zPass 2 1]
    (frameStart false [] [zWriter, zPass 2 1] (fun _ _ => false) []) 1 r ∧ r.ctx.prev = zWriter.state :=
  entersAt_second (env := ⟨false, fun _ => true⟩) (G := xG) (index := fun _ => 0) (p := zWriter) (q := zPass 2 1)
    (next := []) (f := frameStart false [] [zWriter, zPass 2 1] (fun _ _ => false) [])
    (fun r => r.ctx.prev) _ rfl (by decide)

example : KeepsPipeline zWriter := fun _ _ => ⟨rfl, rfl, rfl, rfl⟩

/-- Non-vacuity of the sharing hypotheses of `announced_next_partial`. -/
example : Share zWriter (zPass 2 1) 1 :=
  ⟨0, ⟨_, List.mem_singleton.2 rfl, zView 1, by decide, rfl, (zView 1).range, virtual_designates _ _ _, by decide,
    by decide⟩, ⟨_, List.mem_singleton.2 rfl, zView 1, by decide, rfl, (zView 1).range, virtual_designates _ _ _,
    by decide, by decide⟩⟩

/-- Non-vacuity of `told_output` and `told_next_partial`: the first pass is told the layout the second one wants, the
second the declared output. -/
def tG : GraphSt := { xG with outputs := [(1, [(0, [(0, makeLayoutState Layout.transferSrc)])])] }
def tWriter : RunPass :=
  ⟨1, 1, true, ⟨Access.shaderRead, Stage.computeShader⟩, [ImageAdder.outputStorage.attach 1 0 [xView]], [], [], fun _ r => r⟩

theorem tShare {i : Nat} (h : Share tWriter xReader i) : i = 1 := by
  obtain ⟨l, ⟨a, ha, v, hv, he, _⟩, _⟩ := h
  cases List.mem_singleton.1 ha
  cases List.mem_singleton.1 hv
  exact he.symm

theorem example_told : (∃ r, EntersAt ⟨false, fun _ => true⟩ tG (fun _ => 0) [tWriter, xReader]
      (frameStart false [] [tWriter, xReader] (fun _ _ => false) []) 0 r
      ∧ (getNextLayoutState false tG r.ctx tWriter xView).layout = Layout.shaderReadOnly)
    ∧ ∃ r, EntersAt ⟨false, fun _ => true⟩ tG (fun _ => 0) [tWriter, xReader]
      (frameStart false [] [tWriter, xReader] (fun _ _ => false) []) 1 r
      ∧ (getNextLayoutState false tG r.ctx xReader xView).layout = Layout.transferSrc := by
  have hk : ∀ p ∈ [tWriter, xReader], KeepsPipeline p := by
    intro p hp
    simp only [List.mem_cons, List.not_mem_nil, or_false] at hp
    rcases hp with rfl | rfl <;> exact fun _ _ => ⟨rfl, rfl, rfl, rfl⟩
  have hd : Designates xView.image xView.viewType xView.range xView.range := virtual_designates _ _ _
  constructor
  · obtain ⟨r, h, -⟩ := entersAt_head (env := ⟨false, fun _ => true⟩) (G := tG) (index := fun _ => 0) (p := tWriter)
      (next := [xReader]) (f := frameStart false [] [tWriter, xReader] (fun _ _ => false) [])
      (fun _ => ()) () rfl (by decide)
    refine ⟨r, h, ?_⟩
    refine told_next_partial _ tG [] _ _ hk _ _ 0 r h tWriter xReader rfl [] [] rfl rfl xView xView.range hd (by decide)
      (by simp) (fun j hj => tShare hj) _ (List.mem_singleton.2 rfl) (List.mem_singleton.2 rfl)
      (expects false xReader (ImageAdder.sampled.attach 2 0 [xView])) (by decide) ?_
    intro l m hl
    refine ⟨⟨_, List.mem_singleton.2 rfl, xView, List.mem_singleton.2 rfl, rfl, _, hd, hl⟩, ?_⟩
    rintro b ⟨hb, -⟩
    cases List.mem_singleton.1 hb
    rfl
  · obtain ⟨r, h, -⟩ := entersAt_second (env := ⟨false, fun _ => true⟩) (G := tG) (index := fun _ => 0) (p := tWriter)
      (q := xReader) (next := []) (f := frameStart false [] [tWriter, xReader] (fun _ _ => false) [])
      (fun _ => ()) () rfl (by decide)
    refine ⟨r, h, ?_⟩
    refine told_output _ tG [] _ _ hk _ _ 1 r h xReader rfl xView xView.range hd (by simp) _ (by decide) (by decide) ?_
    intro l m hl
    have e1 : l = 0 := by have := hl.1; have := hl.2.1; simp [xView] at *; omega
    have e2 : m = 0 := by have := hl.2.2.1; have := hl.2.2.2; simp [xView] at *; omega
    subst e1 e2
    decide

/-! ### C20 -/

/-- C20, next layout: the announced one if any, else the one declared with `addOutput` if any, else the pass's
own. -/
theorem next_lookup (sepDS : Bool) (G : GraphSt) (c : Ctx) (p : RunPass) (v : View) :
    let announced := c.nextImages.getState v.image v.viewType v.range
    let output := G.outputs.toMap.getState v.image v.viewType v.range
    let own := (p.layouts sepDS).toMap.getState v.image v.viewType v.range
    (announced.layout ≠ Layout.undefined → getNextLayoutState sepDS G c p v = announced)
    ∧ (announced.layout = Layout.undefined → output.layout ≠ Layout.undefined →
        getNextLayoutState sepDS G c p v = output)
    ∧ (announced.layout = Layout.undefined → output.layout = Layout.undefined →
        getNextLayoutState sepDS G c p v = own) := by
  simp only [getNextLayoutState]
  refine ⟨?_, ?_, ?_⟩
  · intro h; rw [if_neg h, if_neg h]
  · intro h h'; rw [if_pos h, if_neg h']
  · intro h h'; rw [if_pos h, if_pos h']

/-- C20, current layout: the tracked one if any, else the one declared with `addInput` if any, else the one the
previous execution left; the context is updated so that asking again, in any context that only differs in what it
tracks of other images, gives the same answer. -/
theorem current_lookup (G : GraphSt) (c : Ctx) (v : View) :
    let tracked := c.images.getState v.image v.viewType v.range
    let input := G.inputs.getState v.image v.viewType v.range
    let final := G.final.images.getState v.image v.viewType v.range
    let answer := (getCurrentLayoutState G c v).1
    (tracked.layout ≠ Layout.undefined → answer = tracked)
    ∧ (tracked.layout = Layout.undefined → input.layout ≠ Layout.undefined → answer = input)
    ∧ (tracked.layout = Layout.undefined → input.layout = Layout.undefined → answer = final) := by
  simp only [getCurrentLayoutState]
  refine ⟨?_, ?_, ?_⟩
  · intro h; simp [h]
  · intro h h'; simp [h, h']
  · intro h h'
    simp only [h, h', ne_eq, not_true_eq_false, if_true, if_false]
    split <;> rfl

/-- C20: the answer is remembered, subresource by subresource, for the whole view (as soon as it isn't UNDEFINED
and wasn't tracked), and nothing else changes. -/
theorem current_lookup_remembers (G : GraphSt) (c : Ctx) (v : View)
    (h0 : (c.images.getState v.image v.viewType v.range).layout = Layout.undefined)
    (h1 : (getCurrentLayoutState G c v).1.layout ≠ Layout.undefined) (sub : Range)
    (hd : Designates v.image v.viewType v.range sub) (i l m : Nat) :
    (getCurrentLayoutState G c v).2.images.at i l m
      = if i = v.image.id ∧ sub.Has l m then some (getCurrentLayoutState G c v).1 else c.images.at i l m := by
  have hs : (getCurrentLayoutState G c v).2
      = c.setLayout v.image v.viewType v.range (getCurrentLayoutState G c v).1 := by
    unfold getCurrentLayoutState at h1 ⊢
    simp only [h0, ne_eq, if_true] at h1 ⊢
    by_cases h2 : (G.inputs.getState v.image v.viewType v.range).layout = Layout.undefined
    · simp only [h2, not_true_eq_false, if_false, if_true] at h1 ⊢
      by_cases h3 : (G.final.images.getState v.image v.viewType v.range).layout = Layout.undefined
      · simp [h3] at h1
      · simp [h3]
    · simp [h2]
  rw [hs]
  simp only [Ctx.setLayout, LayoutMap.at_setState]
  have hiff := hd.has_iff l m
  by_cases hc : i = v.image.id ∧ sub.Has l m
  · rw [if_pos hc, if_pos ⟨hc.1, hiff.1 hc.2⟩]
  · rw [if_neg hc, if_neg fun hx => hc ⟨hx.1, hiff.2 hx.2⟩]

/-- C20: hence looking it up again gives the same answer and changes nothing more. -/
theorem current_lookup_stable (G : GraphSt) (c : Ctx) (v : View) (sub : Range)
    (hd : Designates v.image v.viewType v.range sub) (hne : sub.NonEmpty) :
    (getCurrentLayoutState G (getCurrentLayoutState G c v).2 v).1 = (getCurrentLayoutState G c v).1 := by
  by_cases h0 : (c.images.getState v.image v.viewType v.range).layout = Layout.undefined
  · by_cases h1 : (getCurrentLayoutState G c v).1.layout = Layout.undefined
    · have : (getCurrentLayoutState G c v).2 = c := by
        unfold getCurrentLayoutState at h1 ⊢
        simp only [h0, ne_eq, if_true] at h1 ⊢
        by_cases h2 : (G.inputs.getState v.image v.viewType v.range).layout = Layout.undefined
        · simp only [h2, not_true_eq_false, if_false, if_true] at h1 ⊢
          by_cases h3 : (G.final.images.getState v.image v.viewType v.range).layout = Layout.undefined
          · simp [h3]
          · simp [h3] at h1
        · simp [h2] at h1
      rw [this]
    · have hall := current_lookup_remembers G c v h0 h1 sub hd
      have hg : (getCurrentLayoutState G c v).2.images.getState v.image v.viewType v.range
          = (getCurrentLayoutState G c v).1 := by
        apply LayoutMap.getState_uniform
        · obtain ⟨l, m, hlm⟩ := sub.nonEmpty_iff.1 hne
          refine ⟨l, m, (hd.has_iff l m).1 hlm, ?_⟩
          rw [hall, if_pos ⟨rfl, hlm⟩]
          rfl
        · intro l m t hlm ht
          rw [hall, if_pos ⟨rfl, (hd.has_iff l m).2 hlm⟩] at ht
          exact (Option.some.inj ht).symm
      have := (current_lookup G (getCurrentLayoutState G c v).2 v).1 (by rw [hg]; exact h1)
      rw [this, hg]
  · have : (getCurrentLayoutState G c v).2 = c := by
      unfold getCurrentLayoutState; simp [h0]
    rw [this]

end Verif.Run
