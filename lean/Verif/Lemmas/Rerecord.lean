import Verif.Spec.Rerecord
import Verif.Spec.Settle
import Verif.Props.Bracket
/-! Recording functions don't look at the commands already recorded. -/
namespace Verif.Rerec
open Verif.Rec Verif.Att Verif.Run Verif.Gpu

/-- The same recording, with more commands before. -/
def shift (A : List Cmd) (r : Rec) : Rec := ⟨r.ctx, A ++ r.cmds⟩

@[simp] theorem shift_ctx (A r) : (shift A r).ctx = r.ctx := rfl
@[simp] theorem shift_cmds (A r) : (shift A r).cmds = A ++ r.cmds := rfl

theorem shift_nil (c : Ctx) (A : List Cmd) : shift A ⟨c, []⟩ = ⟨c, A⟩ := by simp [shift]

theorem shift_emit (A r c) : (shift A r).emit c = shift A (r.emit c) := by simp [shift, Rec.emit]

theorem shift_setCtx (A : List Cmd) (r : Rec) (c : Ctx) : ({ shift A r with ctx := c } : Rec) = shift A { r with ctx := c } := rfl

theorem imageBarrier_form (env : Env) (c : Ctx) (img vt sub i) (w : LayoutState) (f : Bool) :
    ∃ (b : Bool) (x : Cmd), (b = true → f = true ∨ w.layout ≠ Layout.undefined) ∧ ∀ cmds,
      Rec.imageBarrier env ⟨c, cmds⟩ img vt sub i w f
        = if b = true then ⟨c.setLayout img vt (adaptRange env.sepDS img.format sub) w, cmds ++ [x]⟩ else ⟨c, cmds⟩ := by
  let range := adaptRange env.sepDS img.format sub
  let src := if (c.images.getState img vt range).layout = Layout.undefined then makeLayoutState i else c.images.getState img vt range
  refine ⟨f || ((src.layout != w.layout || src.state.stage != w.state.stage) && w.layout != Layout.undefined),
    .imageBarrier img.id range src.state w.state src.layout w.layout, ?_, fun cmds => rfl⟩
  intro h
  simp only [Bool.or_eq_true, Bool.and_eq_true, bne_iff_ne] at h
  rcases h with h | h
  · exact Or.inl h
  · exact Or.inr h.2

theorem shift_imageBarrier (A env r img vt sub i w f) :
    Rec.imageBarrier env (shift A r) img vt sub i w f = shift A (Rec.imageBarrier env r img vt sub i w f) := by
  obtain ⟨b, x, -, h⟩ := imageBarrier_form env r.ctx img vt sub i w f
  have h1 := h (A ++ r.cmds)
  have h2 := h r.cmds
  have e1 : Rec.imageBarrier env (shift A r) img vt sub i w f = _ := h1
  have e2 : Rec.imageBarrier env r img vt sub i w f = _ := h2
  rw [e1, e2]
  cases b <;> simp [shift]

theorem shift_viewBarrier (A env r v i w f) :
    Rec.viewBarrier env (shift A r) v i w f = shift A (Rec.viewBarrier env r v i w f) := shift_imageBarrier ..

theorem bufferBarrier_form (c : Ctx) (b o s i w) (f : Bool) :
    ∃ (y : Bool) (x : Cmd), ∀ cmds, Rec.bufferBarrier ⟨c, cmds⟩ b o s i w f
        = if y = true then ⟨c.setAccess b w, cmds ++ [x]⟩ else ⟨c, cmds⟩ := by
  let src := if (c.getAccess b).stage = Stage.bottomOfPipe then i else c.getAccess b
  exact ⟨f || (src.access != w.access || src.stage != w.stage), .bufferBarrier b o s src w, fun _ => rfl⟩

theorem shift_bufferBarrier (A r b o s i w f) :
    Rec.bufferBarrier (shift A r) b o s i w f = shift A (Rec.bufferBarrier r b o s i w f) := by
  obtain ⟨y, x, h⟩ := bufferBarrier_form r.ctx b o s i w f
  have e1 : Rec.bufferBarrier (shift A r) b o s i w f = _ := h (A ++ r.cmds)
  have e2 : Rec.bufferBarrier r b o s i w f = _ := h r.cmds
  rw [e1, e2]
  cases y <;> simp [shift]

theorem shift_finalBarrier (A env r v f) : Rec.finalBarrier env (shift A r) v f = shift A (Rec.finalBarrier env r v f) := by
  unfold Rec.finalBarrier
  split
  · exact shift_viewBarrier ..
  · rfl

theorem shift_doCopy (A env r s d w h f) : Rec.doCopy env (shift A r) s d w h f = shift A (Rec.doCopy env r s d w h f) := by
  unfold Rec.doCopy
  simp only [shift_viewBarrier, shift_emit, shift_finalBarrier]

theorem shift_doBlit (A env r s d a b c e f g h i j k) :
    Rec.doBlit env (shift A r) s d a b c e f g h i j k = shift A (Rec.doBlit env r s d a b c e f g h i j k) := by
  unfold Rec.doBlit
  simp only [shift_viewBarrier, shift_emit, shift_finalBarrier]

theorem shift_doClear (A env r d v f) : Rec.doClear env (shift A r) d v f = shift A (Rec.doClear env r d v f) := by
  unfold Rec.doClear
  simp only [shift_viewBarrier, shift_emit, shift_finalBarrier]

theorem shift_runImplicitN (A env) : ∀ (n : Nat) (r : Rec) (v : View),
    Rec.runImplicitN env n (shift A r) v = shift A (Rec.runImplicitN env n r v)
  | 0, _, _ => rfl
  | n + 1, r, v => by
    unfold Rec.runImplicitN
    rw [shift_ctx]
    cases e : r.ctx.implicit.find? (Implicit.isFor v) with
    | none => rfl
    | some t =>
      simp only
      rw [shift_setCtx]
      generalize ({ r with ctx := { r.ctx with implicit := r.ctx.implicit.eraseP (Implicit.isFor v) } } : Rec) = r1
      cases env.enabled t.pass
      · simp only [Bool.false_eq_true, if_false]
        cases t.action with
        | nothing => rfl
        | user k => exact shift_emit ..
        | copy s d w h f => simp only; rw [shift_runImplicitN A env n, shift_doCopy]
        | blit s d a b c e f g h i j k => simp only; rw [shift_runImplicitN A env n, shift_doBlit]
        | clear d v f => exact shift_doClear ..
      · rfl

theorem shift_runImplicit (A env r v) : Rec.runImplicit env (shift A r) v = shift A (Rec.runImplicit env r v) :=
  shift_runImplicitN ..

theorem shift_recordImage (A env G index r a) :
    recordImage env G index (shift A r) a = (recordImage env G index r a).map (shift A) := by
  unfold recordImage
  cases a.img.view index with
  | none => rfl
  | some v =>
    simp only
    rw [shift_runImplicit]
    generalize Rec.runImplicit env r v = r1
    split
    · split
      · simp only [shift_ctx, Option.map_some]
        rw [shift_setCtx, shift_viewBarrier, shift_emit, shift_viewBarrier]
      · simp only [shift_ctx, Option.map_some]
        rw [shift_setCtx, shift_viewBarrier]
    · rfl

theorem shift_recordBuffer (A compute index r a) :
    recordBuffer compute index (shift A r) a = (recordBuffer compute index r a).map (shift A) := by
  unfold recordBuffer
  split
  · cases a.buf.buffer index with
    | none => rfl
    | some b =>
      simp only [shift_ctx]
      split
      · rw [shift_bufferBarrier, shift_emit, shift_bufferBarrier]; rfl
      · rw [shift_bufferBarrier]; rfl
  · rfl

theorem shift_foldOpt {α : Type} (A : List Cmd) (f : Rec → α → Option Rec)
    (h : ∀ r a, f (shift A r) a = (f r a).map (shift A)) : ∀ (l : List α) (r : Rec),
    foldOpt f (shift A r) l = (foldOpt f r l).map (shift A)
  | [], _ => rfl
  | a :: l, r => by
    unfold foldOpt
    rw [h]
    cases f r a with
    | none => rfl
    | some r1 => exact shift_foldOpt A f h l r1

theorem shift_foldl {α : Type} (A : List Cmd) (f : Rec → α → Rec) (h : ∀ r a, f (shift A r) a = shift A (f r a)) :
    ∀ (l : List α) (r : Rec), l.foldl f (shift A r) = shift A (l.foldl f r)
  | [], _ => rfl
  | a :: l, r => by
    simp only [List.foldl_cons]
    rw [h]
    exact shift_foldl A f h l _

theorem shift_prepare (A env G p index r) : prepare env G p index (shift A r) = (prepare env G p index r).map (shift A) := by
  unfold prepare
  rw [shift_foldOpt A _ (fun r a => shift_recordImage A env G index r a)]
  cases foldOpt (recordImage env G index) r p.images with
  | none => rfl
  | some r1 => exact shift_foldOpt A _ (fun r a => shift_recordBuffer A _ _ r a) _ _

theorem shift_registerAll (A p r) : registerAll p (shift A r) = shift A (registerAll p r) :=
  shift_foldl A _ (fun _ _ => rfl) _ _

theorem blind_shift {p : RunPass} (h : Blind p) (A i r) : p.body i (shift A r) = shift A (p.body i r) := by
  have h1 := h i r.ctx (A ++ r.cmds)
  have h2 := h i r.ctx r.cmds
  have h2' : p.body i r = _ := h2
  show p.body i ⟨r.ctx, A ++ r.cmds⟩ = _
  rw [h1, h2']
  simp [shift]

theorem blind_of_shift {p : RunPass} (h : ∀ A i r, p.body i (shift A r) = shift A (p.body i r)) : Blind p := by
  intro i c cmds
  have := h cmds i ⟨c, []⟩
  rw [shift_nil] at this
  exact this

/-- `recordInto` as a function of the context and the commands, without the rest of the frame. -/
def into (env : Env) (G : GraphSt) (p : RunPass) (index : Nat) (r : Rec) : Option Rec :=
  if env.enabled p.id then
    if index < p.maxPassCount then (prepare env G p index r).map fun r => registerAll p (p.body index r) else none
  else some (registerAll p r)

theorem recordInto_into (env G p index f) :
    (Run.recordInto env G p index f).map (·.recd) = into env G p index f.recd := by
  unfold Run.recordInto into
  split
  · split
    · simp only
      have hr : (if (!f.initialised p.id index) = true then f.initialise p index else f).recd = f.recd := by
        split <;> rfl
      rw [hr]
      cases prepare env G p index f.recd <;> rfl
    · rfl
  · rfl

theorem shift_into {p : RunPass} (hb : Blind p) (A env G index r) :
    into env G p index (shift A r) = (into env G p index r).map (shift A) := by
  unfold into
  split
  · split
    · rw [shift_prepare]
      cases prepare env G p index r with
      | none => rfl
      | some r1 =>
        simp only [Option.map_some]
        rw [blind_shift hb, shift_registerAll]
    · rfl
  · simp only [Option.map_some]
    rw [shift_registerAll]

/-! ### What the tracker knows stays known -/

theorem knows_iff (m : LayoutMap) (v : View) :
    Knows m v ↔ (∃ l n s, (getVirtualRange v.image v.viewType v.range).Has l n ∧ m.at v.image.id l n = some s)
      ∧ ∀ l n s, (getVirtualRange v.image v.viewType v.range).Has l n → m.at v.image.id l n = some s →
          s.layout ≠ Layout.undefined := by
  unfold Knows LayoutMap.getState LayoutMap.at
  cases hm : m v.image.id with
  | none => simp
  | some x =>
    simp only
    have hs := scan_found x (getVirtualRange v.image v.viewType v.range)
    unfold getSubresourceRangeLayout
    generalize hacc : (foundStates x (getVirtualRange v.image v.viewType v.range)).foldl (fun acc s => emplaceState s acc) [] = acc at hs
    have hl : ∀ y, (∃ t ∈ acc, t.layout = y) ↔ ∃ l n s, (getVirtualRange v.image v.viewType v.range).Has l n ∧ x l n = some s
        ∧ s.layout = y := by
      intro y
      rw [hs.layouts y]
      constructor
      · rintro ⟨t, ht, e⟩
        obtain ⟨l, n, h1, h2⟩ := mem_foundStates.1 ht
        exact ⟨l, n, t, h1, h2, e⟩
      · rintro ⟨l, n, s, h1, h2, e⟩
        exact ⟨s, mem_foundStates.2 ⟨l, n, h1, h2⟩, e⟩
    cases acc with
    | nil =>
      simp only [ne_eq, not_true_eq_false, false_iff, not_and]
      rintro ⟨l, n, s, h1, h2⟩
      obtain ⟨t, ht, -⟩ := (hl s.layout).2 ⟨l, n, s, h1, h2, rfl⟩
      simp at ht
    | cons t r =>
      simp only
      have hmin : ∀ u ∈ t :: r, t.layout ≤ u.layout := by
        intro u hu
        have := hs.sorted
        unfold Sorted at this
        rw [List.pairwise_cons] at this
        rcases List.mem_cons.1 hu with rfl | hu
        · exact Nat.le_refl _
        · exact Nat.le_of_lt (this.1 u hu)
      constructor
      · intro h
        refine ⟨?_, ?_⟩
        · obtain ⟨l, n, s, h1, h2, -⟩ := (hl t.layout).1 ⟨t, by simp, rfl⟩
          exact ⟨l, n, s, h1, h2⟩
        · intro l n s h1 h2 e
          obtain ⟨u, hu, e'⟩ := (hl s.layout).2 ⟨l, n, s, h1, h2, rfl⟩
          have := hmin u hu
          rw [e', e] at this
          exact h (Nat.le_zero.1 this)
      · rintro ⟨-, h⟩ e
        obtain ⟨l, n, s, h1, h2, e'⟩ := (hl t.layout).1 ⟨t, by simp, rfl⟩
        exact h l n s h1 h2 (e'.trans e)

theorem knows_set {m : LayoutMap} {v : View} (h : Knows m v) (img vt r) {s : LayoutState} (hs : s.layout ≠ Layout.undefined) :
    Knows (m.setState img vt r s) v := by
  rw [knows_iff] at h ⊢
  simp only [LayoutMap.at_setState]
  obtain ⟨⟨l, n, t, h1, h2⟩, h3⟩ := h
  refine ⟨⟨l, n, ?_⟩, ?_⟩
  · by_cases hc : v.image.id = img.id ∧ (getVirtualRange img vt r).Has l n
    · exact ⟨s, h1, if_pos hc⟩
    · exact ⟨t, h1, by rw [if_neg hc]; exact h2⟩
  · intro l n t h4 h5
    by_cases hc : v.image.id = img.id ∧ (getVirtualRange img vt r).Has l n
    · rw [if_pos hc] at h5
      cases h5
      exact hs
    · rw [if_neg hc] at h5
      exact h3 l n t h4 h5

/-- What is known in `r` is in `r'`. -/
structure Keeps (r r' : Rec) : Prop where
  all : ∀ v, Knows r.ctx.images v → Knows r'.ctx.images v

theorem Keeps.refl (r : Rec) : Keeps r r := ⟨fun _ h => h⟩
theorem Keeps.trans {a b c : Rec} (h : Keeps a b) (h' : Keeps b c) : Keeps a c := ⟨fun v x => h'.all v (h.all v x)⟩
theorem Keeps.same {r r' : Rec} (h : r'.ctx.images = r.ctx.images) : Keeps r r' := ⟨fun v x => by rw [h]; exact x⟩

theorem keeps_imageBarrier (env r img vt sub i w) : Keeps r (Rec.imageBarrier env r img vt sub i w false) := by
  refine ⟨fun v h => ?_⟩
  obtain ⟨b, x, hb, e⟩ := imageBarrier_form env r.ctx img vt sub i w false
  have e : Rec.imageBarrier env r img vt sub i w false = _ := e r.cmds
  rw [e]
  cases b
  · exact h
  · exact knows_set h _ _ _ (by simpa using hb rfl)

theorem keeps_viewBarrier (env r v i w) : Keeps r (Rec.viewBarrier env r v i w) := keeps_imageBarrier ..

theorem keeps_emit (r c) : Keeps r (Rec.emit r c) := Keeps.same rfl

theorem keeps_finalBarrier (env r v f) : Keeps r (Rec.finalBarrier env r v f) := by
  unfold Rec.finalBarrier
  split
  · exact keeps_viewBarrier ..
  · exact Keeps.refl _

theorem keeps_doCopy (env r s d w h f) : Keeps r (Rec.doCopy env r s d w h f) :=
  ((keeps_viewBarrier ..).trans (keeps_viewBarrier ..)).trans ((keeps_emit ..).trans (keeps_finalBarrier ..))

theorem keeps_doBlit (env r s d a b c e f g h i j k) : Keeps r (Rec.doBlit env r s d a b c e f g h i j k) :=
  ((keeps_viewBarrier ..).trans (keeps_viewBarrier ..)).trans ((keeps_emit ..).trans (keeps_finalBarrier ..))

theorem keeps_doClear (env r d v f) : Keeps r (Rec.doClear env r d v f) :=
  (keeps_viewBarrier ..).trans ((keeps_emit ..).trans (keeps_finalBarrier ..))

theorem keeps_runImplicitN (env) : ∀ (n : Nat) (r : Rec) (v : View), Keeps r (Rec.runImplicitN env n r v)
  | 0, _, _ => Keeps.refl _
  | n + 1, r, v => by
    unfold Rec.runImplicitN
    cases e : r.ctx.implicit.find? (Implicit.isFor v) with
    | none => exact Keeps.refl _
    | some t =>
      simp only
      refine Keeps.trans (b := { r with ctx := { r.ctx with implicit := r.ctx.implicit.eraseP (Implicit.isFor v) } }) (Keeps.same rfl) ?_
      generalize ({ r with ctx := { r.ctx with implicit := r.ctx.implicit.eraseP (Implicit.isFor v) } } : Rec) = r1
      cases env.enabled t.pass
      · simp only [Bool.false_eq_true, if_false]
        cases t.action with
        | nothing => exact Keeps.refl _
        | user k => exact keeps_emit ..
        | copy s d w h f => exact (keeps_runImplicitN env n r1 s).trans (keeps_doCopy ..)
        | blit s d a b c e f g h i j k => exact (keeps_runImplicitN env n r1 s).trans (keeps_doBlit ..)
        | clear d v f => exact keeps_doClear ..
      · exact Keeps.refl _

theorem keeps_current (G : GraphSt) (r : Rec) (v : View) : Keeps r { r with ctx := (getCurrentLayoutState G r.ctx v).2 } := by
  refine ⟨fun w h => ?_⟩
  show Knows (getCurrentLayoutState G r.ctx v).2.images w
  unfold getCurrentLayoutState
  simp only
  have set : ∀ (c : Ctx) (s : LayoutState), Knows c.images w → s.layout ≠ Layout.undefined →
      Knows (c.setLayout v.image v.viewType v.range s).images w := fun c s hc hs => knows_set hc _ _ _ hs
  repeat' split
  all_goals first
    | exact h
    | exact set _ _ h (by assumption)
    | exact set _ _ (set _ _ h (by assumption)) (by assumption)

theorem keeps_recordImage {env G index r a r'} (e : recordImage env G index r a = some r') : Keeps r r' := by
  unfold recordImage at e
  split at e
  · cases e
  · rename_i v _
    refine Keeps.trans (b := r.runImplicit env v) (keeps_runImplicitN env _ r v) ?_
    simp only at e
    generalize Rec.runImplicit env r v = r1 at e ⊢
    have hcur : Keeps r1 { r1 with ctx := (if (!a.isInput) = true then (makeLayoutState Layout.undefined, r1.ctx)
        else getCurrentLayoutState G r1.ctx v).2 } := by
      split
      · exact Keeps.refl _
      · exact keeps_current ..
    split at e
    · split at e
      · injection e with e
        subst e
        exact hcur.trans ((keeps_viewBarrier ..).trans ((keeps_emit ..).trans (keeps_viewBarrier ..)))
      · injection e with e
        subst e
        exact hcur.trans (keeps_viewBarrier ..)
    · injection e with e
      subst e
      exact Keeps.refl _

/-! ### The same lookups -/

theorem current_same {G G' : GraphSt} (hi : G'.inputs = G.inputs) {c : Ctx} {v : View}
    (h : Knows c.images v ∨ Knows G.inputs v
      ∨ G.final.images.getState v.image v.viewType v.range = G'.final.images.getState v.image v.viewType v.range) :
    getCurrentLayoutState G' c v = getCurrentLayoutState G c v := by
  unfold getCurrentLayoutState
  rw [hi]
  simp only
  rcases h with h | h | h
  · unfold Knows at h
    rw [if_neg h]
    rw [if_neg h, if_neg h]
  · unfold Knows at h
    by_cases hc : (c.images.getState v.image v.viewType v.range).layout = Layout.undefined
    · rw [if_pos hc, if_pos h]
      simp only
      rw [if_neg h, if_neg h]
    · rw [if_neg hc]
      simp only
      rw [if_neg hc, if_neg hc]
  · rw [h]

theorem prepareImages_same (env : Env) {G G' : GraphSt} (hi : G'.inputs = G.inputs) (i : Nat) : ∀ (l : List Attachment) (r : Rec),
    (∀ a ∈ l, moved a = true → a.isInput = true → ∀ v, a.img.view i = some v →
      Knows r.ctx.images v ∨ Knows G.inputs v
        ∨ G.final.images.getState v.image v.viewType v.range = G'.final.images.getState v.image v.viewType v.range) →
    foldOpt (recordImage env G' i) r l = foldOpt (recordImage env G i) r l
  | [], _, _ => rfl
  | a :: l, r, h => by
    have h1 : recordImage env G' i r a = recordImage env G i r a := by
      unfold recordImage
      cases hv : a.img.view i with
      | none => rfl
      | some v =>
        simp only
        by_cases hm : moved a = true
        · rw [if_pos hm, if_pos hm]
          by_cases hin : a.isInput = true
          · have := current_same (c := (r.runImplicit env v).ctx) hi ((h a (by simp) hm hin v hv).imp
              ((keeps_runImplicitN env _ r v).all v) _root_.id)
            simp only [hin, Bool.not_true, Bool.false_eq_true, if_false, this]
          · simp only [Bool.not_eq_true] at hin
            simp only [hin, Bool.not_false, if_true]
        · rw [if_neg hm, if_neg hm]
    unfold foldOpt
    rw [h1]
    cases e : recordImage env G i r a with
    | none => rfl
    | some r1 =>
      exact prepareImages_same env hi i l r1 fun b hb hm hin v hv =>
        (h b (by simp [hb]) hm hin v hv).imp ((keeps_recordImage e).all v) _root_.id

theorem into_same (env : Env) {G G' : GraphSt} (hi : G'.inputs = G.inputs) {p : RunPass} {i : Nat} {r : Rec}
    (h : Settled p i r.ctx.images G.inputs G.final.images G'.final.images) : into env G' p i r = into env G p i r := by
  unfold into prepare
  rw [prepareImages_same env hi i p.images r h]

end Verif.Rerec
