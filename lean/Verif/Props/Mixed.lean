import Verif.Spec.Mixed
import Verif.Props.Ready
import Verif.Props.Layout
/-
C92: parts and the whole of an image can be mixed. Whatever views the passes use, overlapping or not, everything recorded is
valid and every body starts with its images in the declared layouts, as long as each use finds its view settled.
-/
namespace Verif.Run
open Verif.Rec Verif.Att Verif.Gpu

variable {sepDS : Bool} {fmt : Nat → Nat} {g0 : Layouts} {G : GraphSt} {pend : List Implicit}

/-- Invariant of a recording: the layouts `h` are the tracked ones and, where there are any, the GPU's;
`pend` are the actions registered and not run. -/
structure Base (fmt : Nat → Nat) (g0 : Layouts) (G : GraphSt) (pend : List Implicit) (h : Left) (r : Rec) : Prop where
  tracked : leftIn r.ctx.images = h
  mirrors : Mirrors fmt g0 r.ctx.images (execAll g0 r.cmds)
  valid : StreamValid g0 r.cmds
  honest : ∀ i a l m s, HasAspect (fmt i) a → known r.ctx G i l m = some s → r.ctx.images.at i l m = none →
    g0 i a l m = s.layout
  pending : r.ctx.implicit = pend

theorem leftIn_none {m : LayoutMap} {i l k : Nat} : leftIn m i l k = none ↔ m.at i l k = none := by
  simp [leftIn]

theorem leftIn_some {m : LayoutMap} {i l k x : Nat} : leftIn m i l k = some x ↔ ∃ s, m.at i l k = some s ∧ s.layout = x := by
  simp [leftIn]

/-- The GPU's layout of what was given one. -/
theorem Base.gpu {h : Left} {r : Rec} (b : Base fmt g0 G pend h r) {i a l m x : Nat} (ha : HasAspect (fmt i) a)
    (hx : h i l m = some x) : execAll g0 r.cmds i a l m = x := by
  rw [← b.tracked, leftIn_some] at hx
  obtain ⟨s, hs, rfl⟩ := hx
  have := b.mirrors i a l m ha
  rw [hs] at this
  exact this

/-- A settled view is read back. -/
theorem settled_get {m : LayoutMap} {v : View} (hd : v.viewType ≠ .d3) (hne : v.range.NonEmpty)
    (h : (leftIn m).Settled v) :
    ((leftIn m).Untouched v ∧ (m.getState v.image v.viewType v.range).layout = Layout.undefined)
    ∨ ((m.getState v.image v.viewType v.range).layout ≠ Layout.undefined
      ∧ ∀ l k, v.range.Has l k → leftIn m v.image.id l k = some (m.getState v.image v.viewType v.range).layout) := by
  rcases h with h | ⟨x, hx, h⟩
  · exact Or.inl ⟨h, getState_plain_none hd fun l k hl => leftIn_none.1 (h l k hl)⟩
  · right
    have e : (m.getState v.image v.viewType v.range).layout = x := by
      obtain ⟨l0, k0, h0⟩ := v.range.nonEmpty_iff.1 hne
      obtain ⟨s0, hs0, -⟩ := leftIn_some.1 (h l0 k0 h0)
      refine get_uniform_layout m v.image v.viewType v.range v.range
        (designates_plain (q := ⟨v.image, v.viewType, v.range, 0, ⟨0, ⟨0, 0⟩⟩, false⟩) hd) x
        ⟨l0, k0, h0, by rw [hs0]; rfl⟩ ?_
      intro l k t hl ht
      obtain ⟨s, hs, e⟩ := leftIn_some.1 (h l k hl)
      rw [ht] at hs
      cases hs
      exact e
    rw [e]
    exact ⟨hx, h⟩

theorem getState_adapt (m : LayoutMap) (v : View) (hd : v.viewType ≠ .d3) :
    m.getState v.image v.viewType (adaptRange sepDS v.image.format v.range)
      = m.getState v.image v.viewType v.range := by
  have hdim := adaptRange_dims sepDS v.image.format v.range
  unfold LayoutMap.getState
  rw [virtual_plain _ _ hd, virtual_plain _ _ hd]
  unfold getSubresourceRangeLayout foundStates
  rw [hdim.1, hdim.2.1, hdim.2.2.1, hdim.2.2.2]

/-- A barrier of a settled view. An initial layout is given only for a view that isn't untouched. -/
theorem base_barrier (en : Nat → Bool) {h : Left} {r : Rec} (b : Base fmt g0 G pend h r) {v : View}
    (hv : PlainView sepDS fmt v) (hs : h.Settled v) (i : Nat) (hi : i = Layout.undefined ∨ ¬ h.Untouched v)
    {w : LayoutState} (hw : w.layout ≠ Layout.undefined) (f : Bool) :
    Base fmt g0 G pend (h.after ⟨v, w.layout⟩) (r.viewBarrier ⟨sepDS, en⟩ v i w f) := by
  have hq : Ordinary ⟨sepDS, en⟩ fmt (viewReq v i w f) := ⟨hv.format, hv.view, hv.aspect, hw⟩
  have hm := mirrors_step ⟨sepDS, en⟩ fmt g0 r _ hq b.mirrors
  rw [← viewBarrier_request] at hm
  have mono := mono_barrier ⟨sepDS, en⟩ r v i w f
  have hidle := (viewBarrier_keeps ⟨sepDS, en⟩ r v i w f 0).1
  have hh := honest_mono mono b.honest
  have hr : Rec.viewBarrier ⟨sepDS, en⟩ r v i w f = r.imageBarrier ⟨sepDS, en⟩ v.image v.viewType v.range i w f := rfl
  rw [← b.tracked] at hs hi ⊢
  obtain ⟨src, e0, ⟨hc, e⟩ | ⟨hc, e⟩⟩ := imageBarrier_cases ⟨sepDS, en⟩ r v.image v.viewType v.range i w f
  · refine ⟨?_, hm, ?_, hh, hidle.trans b.pending⟩
    · rw [hr, e]
      funext j l m
      unfold Left.after leftIn
      simp only [Ctx.setLayout, LayoutMap.at_setState]
      rw [virtual_plain _ _ hv.view]
      by_cases hc : j = v.image.id ∧ v.range.Has l m
      · rw [if_pos hc, if_pos ⟨hc.1, (adaptRange_has _ _ _ _ _).2 hc.2⟩]; rfl
      · rw [if_neg hc, if_neg fun x => hc ⟨x.1, (adaptRange_has _ _ _ _ _).1 x.2⟩]
    · rw [hr, e]
      show StreamValid g0 (r.cmds ++ [_])
      rw [streamValid_snoc]
      refine ⟨b.valid, ?_⟩
      unfold Valid
      rw [getState_adapt _ _ hv.view] at e0
      rcases settled_get hv.view hv.some hs with ⟨hu, h0⟩ | ⟨h0, hx⟩
      · left
        rw [if_pos h0] at e0
        rw [e0]
        rcases hi with rfl | hi
        · rfl
        · exact absurd hu hi
      · right
        rw [if_neg h0] at e0
        rw [e0]
        intro a l m hsel
        refine b.gpu ?_ (by rw [← b.tracked]; exact hx l m ((adaptRange_has _ _ _ _ _).1 hsel.2))
        have := hsel.1
        rw [adaptRange_whole hv.aspect, hv.format] at this
        exact this
  · refine ⟨?_, hm, ?_, hh, hidle.trans b.pending⟩
    · rw [hr, e]
      have hsw : src.layout = w.layout := Decidable.byContradiction fun hx => hc (Or.inr ⟨Or.inl hx, hw⟩)
      rw [getState_adapt _ _ hv.view] at e0
      rcases settled_get hv.view hv.some hs with ⟨hu, h0⟩ | ⟨h0, hx⟩
      · exfalso
        rw [if_pos h0] at e0
        rcases hi with rfl | hi
        · rw [e0] at hsw; exact hw hsw.symm
        · exact hi hu
      · rw [if_neg h0] at e0
        funext j l m
        unfold Left.after
        by_cases hc : j = v.image.id ∧ v.range.Has l m
        · rw [if_pos hc, hc.1, hx l m hc.2, ← e0, hsw]
        · rw [if_neg hc]
    · rw [hr, e]; exact b.valid

/-- A command that changes no layout. -/
theorem base_emit {h : Left} {r : Rec} (b : Base fmt g0 G pend h r) (c : Cmd) (hx : ∀ g, exec g c = g)
    (hv : Valid (execAll g0 r.cmds) c) : Base fmt g0 G pend h (r.emit c) := by
  refine ⟨b.tracked, ?_, ?_, b.honest, b.pending⟩
  · show Mirrors _ _ r.ctx.images (execAll g0 (r.cmds ++ [c]))
    rw [execAll_snoc, hx]
    exact b.mirrors
  · show StreamValid g0 (r.cmds ++ [c])
    rw [streamValid_snoc]
    exact ⟨b.valid, hv⟩

theorem runImplicit_idle (env : Env) (r : Rec) (v : View) (h : r.ctx.implicit = []) : r.runImplicit env v = r := by
  unfold Rec.runImplicit
  rw [h]
  rfl

theorem after_settled (h : Left) (u : ViewUse) (hu : u.layout ≠ Layout.undefined) : (h.after u).Settled u.view :=
  Or.inr ⟨u.layout, hu, fun l m hl => by unfold Left.after; rw [if_pos ⟨rfl, hl⟩]⟩

theorem after_after (h : Left) (v : View) (x y : Nat) : (h.after ⟨v, x⟩).after ⟨v, y⟩ = h.after ⟨v, y⟩ := by
  funext i l m
  unfold Left.after
  simp only
  split <;> rfl

theorem after_touched (h : Left) (u : ViewUse) (hne : u.view.range.NonEmpty) : ¬ (h.after u).Untouched u.view := by
  intro hu
  obtain ⟨l, m, hl⟩ := u.view.range.nonEmpty_iff.1 hne
  have := hu l m hl
  unfold Left.after at this
  rw [if_pos ⟨rfl, hl⟩] at this
  simp at this

/-- The tracker takes over what the graph knows of an untouched view. -/
theorem base_setKnown {h : Left} {r : Rec} (b : Base fmt g0 G pend h r) {v : View} (hd : v.viewType ≠ .d3)
    (hu : h.Untouched v) (s : LayoutState)
    (hk : ∀ l k, v.range.Has l k → ∃ t, known r.ctx G v.image.id l k = some t ∧ t.layout = s.layout) :
    Base fmt g0 G pend (h.after ⟨v, s.layout⟩) { r with ctx := r.ctx.setLayout v.image v.viewType v.range s } := by
  have hun : ∀ l k, v.range.Has l k → r.ctx.images.at v.image.id l k = none := by
    intro l k hl
    have := hu l k hl
    rw [← b.tracked] at this
    exact leftIn_none.1 this
  have hat : ∀ i l m, ({ r with ctx := r.ctx.setLayout v.image v.viewType v.range s } : Rec).ctx.images.at i l m
      = if i = v.image.id ∧ v.range.Has l m then some s else r.ctx.images.at i l m := by
    intro i l m
    simp only [Ctx.setLayout, LayoutMap.at_setState, virtual_plain _ _ hd]
  refine ⟨?_, ?_, b.valid, ?_, b.pending⟩
  · funext i l m
    unfold Left.after leftIn
    rw [hat, ← b.tracked]
    by_cases hc : i = v.image.id ∧ v.range.Has l m
    · rw [if_pos hc, if_pos hc]; rfl
    · rw [if_neg hc, if_neg hc]; rfl
  · intro i a l m ha
    have h0 := b.mirrors i a l m ha
    rw [hat]
    by_cases hc : i = v.image.id ∧ v.range.Has l m
    · rw [if_pos hc]
      obtain ⟨rfl, hl⟩ := hc
      rw [hun l m hl] at h0
      obtain ⟨t, ht, et⟩ := hk l m hl
      exact (h0.trans (b.honest _ a l m t ha ht (hun l m hl))).trans et
    · rw [if_neg hc]; exact h0
  · refine honest_mono (r := r) ?_ b.honest
    intro i l m hx
    rw [hat] at hx
    split at hx
    · simp at hx
    · exact hx

/-- `getCurrentLayoutState` of a view that is settled everywhere. -/
theorem base_current {h : Left} {r : Rec} (b : Base fmt g0 G pend h r) {v : View} (hv : PlainView sepDS fmt v)
    (hs : h.Settled v)
    (hk : h.Untouched v → (leftIn G.inputs).Settled v ∧ (leftIn G.final.images).Settled v) :
    ∃ h' : Left, Base fmt g0 G pend h' { r with ctx := (getCurrentLayoutState G r.ctx v).2 } ∧ h'.Settled v
      ∧ ((getCurrentLayoutState G r.ctx v).1.layout = Layout.undefined ∨ ¬ h'.Untouched v)
      ∧ ∀ y, h'.after ⟨v, y⟩ = h.after ⟨v, y⟩ := by
  have hd := hv.view
  have hne := hv.some
  have hs0 := hs
  have hk0 := hk
  rw [← b.tracked] at hs hk
  unfold getCurrentLayoutState
  rcases settled_get hd hne hs with ⟨hu, e1⟩ | ⟨e1, hx⟩
  · simp only [e1, if_true]
    have hu' : h.Untouched v := by rw [← b.tracked]; exact hu
    obtain ⟨hin, hfin⟩ := hk hu
    have step : ∀ s : LayoutState, s.layout ≠ Layout.undefined →
        (∀ l k, v.range.Has l k → ∃ t, known r.ctx G v.image.id l k = some t ∧ t.layout = s.layout) →
        ∃ h' : Left, Base fmt g0 G pend h' { r with ctx := r.ctx.setLayout v.image v.viewType v.range s } ∧ h'.Settled v
          ∧ (False ∨ ¬ h'.Untouched v) ∧ ∀ y, h'.after ⟨v, y⟩ = h.after ⟨v, y⟩ :=
      fun s hsu hkn => ⟨_, base_setKnown b hd hu' s hkn, after_settled h ⟨v, s.layout⟩ hsu,
        Or.inr (after_touched h ⟨v, s.layout⟩ hne), fun y => after_after h v _ y⟩
    rcases settled_get hd hne hin with ⟨hi, e2⟩ | ⟨e2, hix⟩
    · simp only [e2, ne_eq, not_true_eq_false, if_false, if_true]
      rcases settled_get hd hne hfin with ⟨-, e3⟩ | ⟨e3, hfx⟩
      · simp only [e3, not_true_eq_false, if_false]
        exact ⟨h, b, hs0, Or.inl trivial, fun _ => rfl⟩
      · simp only [e3, not_false_eq_true, if_true]
        refine step _ e3 ?_
        intro l k hl
        obtain ⟨t, ht, et⟩ := leftIn_some.1 (hfx l k hl)
        refine ⟨t, ?_, et⟩
        unfold known
        rw [leftIn_none.1 (hu l k hl), leftIn_none.1 (hi l k hl), ht]
    · simp only [ne_eq, e2, not_false_eq_true, if_true, if_false]
      refine step _ e2 ?_
      intro l k hl
      obtain ⟨t, ht, et⟩ := leftIn_some.1 (hix l k hl)
      refine ⟨t, ?_, et⟩
      unfold known
      rw [leftIn_none.1 (hu l k hl), ht]
  · simp only [e1, if_false]
    refine ⟨h, b, hs0, Or.inr ?_, fun _ => rfl⟩
    intro hu
    obtain ⟨l, k, hl⟩ := v.range.nonEmpty_iff.1 hne
    have := hx l k hl
    rw [b.tracked, hu l k hl] at this
    simp at this

theorem clearState_defined : clearState.layout ≠ Layout.undefined := by decide

/-- One image attachment. -/
theorem base_recordImage' (en : Nat → Bool) {index : Nat} {a : Attachment} {h : Left} {r r' : Rec}
    (b : ∀ v, a.img.view index = some v → Base fmt g0 G pend h (r.runImplicit ⟨sepDS, en⟩ v)) {us : List ViewUse}
    (hv : ∀ u ∈ (if moved a then (a.img.view index).map fun v => (⟨v, a.getImageLayout sepDS⟩ : ViewUse) else none).toList,
      PlainView sepDS fmt u.view ∧ u.layout ≠ Layout.undefined)
    (ho : Orderly (leftIn G.inputs) (leftIn G.final.images) h
      ((if moved a then (a.img.view index).map fun v => (⟨v, a.getImageLayout sepDS⟩ : ViewUse) else none).toList ++ us))
    (e : recordImage ⟨sepDS, en⟩ G index r a = some r') :
    ∃ h', Base fmt g0 G pend h' r'
      ∧ h' = h.afterAll (if moved a then (a.img.view index).map fun v => (⟨v, a.getImageLayout sepDS⟩ : ViewUse) else none).toList
      ∧ Orderly (leftIn G.inputs) (leftIn G.final.images) h' us := by
  unfold recordImage at e
  cases hvw : a.img.view index with
  | none => rw [hvw] at e; simp at e
  | some v =>
    rw [hvw] at e hv ho
    replace b := b v hvw
    simp only at e
    generalize r.runImplicit ⟨sepDS, en⟩ v = r at b e
    by_cases hm : moved a = true
    · rw [if_pos hm] at e hv ho ⊢
      simp only [Option.map_some, Option.toList_some, List.mem_singleton, forall_eq, List.cons_append,
        List.nil_append] at hv ho ⊢
      obtain ⟨hp, hlay⟩ := hv
      obtain ⟨o1, o2, o3⟩ := ho
      refine ⟨h.after ⟨v, a.getImageLayout sepDS⟩, ?_, rfl, o3⟩
      have hcur : ∃ cur : LayoutState × Ctx, ∃ h' : Left,
          cur = (if !a.isInput then (makeLayoutState Layout.undefined, r.ctx) else getCurrentLayoutState G r.ctx v)
          ∧ Base fmt g0 G pend h' { r with ctx := cur.2 } ∧ h'.Settled v
          ∧ (cur.1.layout = Layout.undefined ∨ ¬ h'.Untouched v)
          ∧ ∀ y, h'.after ⟨v, y⟩ = h.after ⟨v, y⟩ := by
        by_cases hi : a.isInput = true
        · obtain ⟨h', q1, q2, q3, q4⟩ := base_current b hp o1 o2
          exact ⟨_, h', rfl, by simpa [hi] using q1, q2, by simpa [hi] using q3, q4⟩
        · simp only [Bool.not_eq_true] at hi
          refine ⟨_, h, rfl, ?_, o1, Or.inl ?_, fun _ => rfl⟩ <;> simp only [hi, Bool.not_false, if_true]
          · exact b
          · rfl
      obtain ⟨cur, h', ecur, b', s', i', e'⟩ := hcur
      rw [← ecur] at e
      generalize hr2 : ({ r with ctx := cur.2 } : Rec) = r2 at e b'
      by_cases hc : a.isClearableImage = true
      · rw [if_pos hc] at e
        simp only [Option.some.injEq] at e
        subst e
        have b1 := base_barrier (w := clearState) en b' hp s' cur.1.layout i' (by decide) false
        have b2 := base_emit b1 (.clearImage (isColourFormat v.format) v.image.id Layout.transferDst v.range 0)
          (fun _ => rfl) (by
            intro asp l m hsel
            refine b1.gpu ?_ ?_
            · have := aspect_of_whole hp.aspect hsel.1
              rw [hp.format] at this
              exact this
            · unfold Left.after
              rw [if_pos ⟨rfl, hsel.2⟩]; rfl)
        have b3 := base_barrier (w := makeLayoutState (a.getImageLayout sepDS)) en b2 hp
          (after_settled h' ⟨v, clearState.layout⟩ clearState_defined) Layout.transferDst
          (Or.inr (after_touched h' ⟨v, clearState.layout⟩ hp.some)) hlay false
        rw [after_after, e'] at b3
        exact b3
      · rw [if_neg hc] at e
        simp only [Option.some.injEq] at e
        subst e
        have b3 := base_barrier (w := makeLayoutState (a.getImageLayout sepDS)) en b' hp s' cur.1.layout i' hlay false
        rw [e'] at b3
        exact b3
    · rw [if_neg hm] at e ho ⊢
      simp only [Option.some.injEq] at e
      subst e
      exact ⟨h, b, rfl, ho⟩

theorem base_recordImage (en : Nat → Bool) {index : Nat} {a : Attachment} {h : Left} {r r' : Rec}
    (b : Base fmt g0 G [] h r) {us : List ViewUse}
    (hv : ∀ u ∈ (if moved a then (a.img.view index).map fun v => (⟨v, a.getImageLayout sepDS⟩ : ViewUse) else none).toList,
      PlainView sepDS fmt u.view ∧ u.layout ≠ Layout.undefined)
    (ho : Orderly (leftIn G.inputs) (leftIn G.final.images) h
      ((if moved a then (a.img.view index).map fun v => (⟨v, a.getImageLayout sepDS⟩ : ViewUse) else none).toList ++ us))
    (e : recordImage ⟨sepDS, en⟩ G index r a = some r') :
    ∃ h', Base fmt g0 G [] h' r'
      ∧ h' = h.afterAll (if moved a then (a.img.view index).map fun v => (⟨v, a.getImageLayout sepDS⟩ : ViewUse) else none).toList
      ∧ Orderly (leftIn G.inputs) (leftIn G.final.images) h' us :=
  base_recordImage' en (fun v _ => by rw [runImplicit_idle _ r v b.pending]; exact b) hv ho e

theorem orderly_append {i k : Left} : ∀ {h : Left} {us vs : List ViewUse},
    Orderly i k h (us ++ vs) ↔ Orderly i k h us ∧ Orderly i k (h.afterAll us) vs
  | h, [], vs => ⟨fun x => ⟨trivial, x⟩, fun x => x.2⟩
  | h, u :: us, vs => by
    have := orderly_append (i := i) (k := k) (h := h.after u) (us := us) (vs := vs)
    simp only [List.cons_append, Orderly, this, Left.afterAll, List.foldl_cons, and_assoc]

theorem afterAll_append (h : Left) (us vs : List ViewUse) : h.afterAll (us ++ vs) = (h.afterAll us).afterAll vs := by
  simp [Left.afterAll]

theorem attachUses_cons (index : Nat) (a : Attachment) (as : List Attachment) :
    ((a :: as).filterMap fun a => if moved a then (a.img.view index).map fun v => (⟨v, a.getImageLayout sepDS⟩ : ViewUse)
      else none)
    = (if moved a then (a.img.view index).map fun v => (⟨v, a.getImageLayout sepDS⟩ : ViewUse) else none).toList
      ++ as.filterMap fun a => if moved a then (a.img.view index).map fun v => (⟨v, a.getImageLayout sepDS⟩ : ViewUse)
        else none := by
  rw [List.filterMap_cons]
  cases (if moved a then (a.img.view index).map fun v => (⟨v, a.getImageLayout sepDS⟩ : ViewUse) else none) <;> rfl

/-- All image attachments. -/
theorem base_recordImages (en : Nat → Bool) {index : Nat} : ∀ (as : List Attachment) {h : Left} {r r' : Rec},
    Base fmt g0 G [] h r →
    (∀ u ∈ as.filterMap (fun a => if moved a then (a.img.view index).map fun v => (⟨v, a.getImageLayout sepDS⟩ : ViewUse)
      else none), PlainView sepDS fmt u.view ∧ u.layout ≠ Layout.undefined) →
    Orderly (leftIn G.inputs) (leftIn G.final.images) h
      (as.filterMap fun a => if moved a then (a.img.view index).map fun v => (⟨v, a.getImageLayout sepDS⟩ : ViewUse)
        else none) →
    foldOpt (recordImage ⟨sepDS, en⟩ G index) r as = some r' →
    Base fmt g0 G [] (h.afterAll (as.filterMap fun a => if moved a then
      (a.img.view index).map fun v => (⟨v, a.getImageLayout sepDS⟩ : ViewUse) else none)) r' := by
  intro as
  induction as with
  | nil =>
    intro h r r' b _ _ e
    simp only [foldOpt, Option.some.injEq] at e
    subst e
    exact b
  | cons a as ih =>
    intro h r r' b hv ho e
    unfold foldOpt at e
    rw [attachUses_cons] at hv ho ⊢
    cases e1 : recordImage ⟨sepDS, en⟩ G index r a with
    | none => rw [e1] at e; simp at e
    | some r1 =>
      rw [e1] at e
      obtain ⟨h', b', eh, o'⟩ := base_recordImage en b (fun u hu => hv u (List.mem_append_left _ hu)) ho e1
      have := ih b' (fun u hu => hv u (List.mem_append_right _ hu)) o' e
      rw [afterAll_append, ← eh]
      exact this

theorem base_bufferBarrier {h : Left} {r : Rec} (b : Base fmt g0 G pend h r) (x o s : Nat) (i w : AccessState) (f : Bool) :
    Base fmt g0 G pend h (r.bufferBarrier x o s i w f) := by
  unfold Rec.bufferBarrier
  simp only
  generalize (if (r.ctx.getAccess x).stage = Stage.bottomOfPipe then i else r.ctx.getAccess x) = src
  split
  · have := base_emit b (.bufferBarrier x o s src w) (fun _ => rfl) trivial
    exact ⟨this.tracked, this.mirrors, this.valid, this.honest, this.pending⟩
  · exact b

theorem base_recordBuffers (compute : Bool) (index : Nat) {h : Left} : ∀ (as : List Attachment) {r r' : Rec},
    Base fmt g0 G pend h r → foldOpt (recordBuffer compute index) r as = some r' → Base fmt g0 G pend h r' := by
  intro as
  induction as with
  | nil =>
    intro r r' b e
    simp only [foldOpt, Option.some.injEq] at e
    subst e
    exact b
  | cons a as ih =>
    intro r r' b e
    unfold foldOpt at e
    cases e1 : recordBuffer compute index r a with
    | none => rw [e1] at e; simp at e
    | some r1 =>
      rw [e1] at e
      refine ih ?_ e
      unfold recordBuffer at e1
      split at e1
      · split at e1
        · simp at e1
        · simp only at e1
          split at e1
          · simp only [Option.some.injEq] at e1
            subst e1
            exact base_bufferBarrier (base_emit (base_bufferBarrier b _ _ _ _ _ _) (.fillBuffer _ _ _) (fun _ => rfl) trivial) _ _ _ _ _ _
          · simp only [Option.some.injEq] at e1
            subst e1
            exact base_bufferBarrier b _ _ _ _ _ _
      · simp only [Option.some.injEq] at e1
        subst e1
        exact b

theorem base_prepare (en : Nat → Bool) {index : Nat} {p : RunPass} {h : Left} {r r' : Rec} (b : Base fmt g0 G [] h r)
    (hv : ∀ u ∈ attachUses sepDS index p, PlainView sepDS fmt u.view ∧ u.layout ≠ Layout.undefined)
    (ho : Orderly (leftIn G.inputs) (leftIn G.final.images) h (attachUses sepDS index p))
    (e : prepare ⟨sepDS, en⟩ G p index r = some r') :
    Base fmt g0 G [] (h.afterAll (attachUses sepDS index p)) r' := by
  unfold prepare at e
  cases e1 : foldOpt (recordImage ⟨sepDS, en⟩ G index) r p.images with
  | none => rw [e1] at e; simp at e
  | some r1 =>
    rw [e1] at e
    exact base_recordBuffers p.compute index p.buffers (base_recordImages en p.images b hv ho e1) e

/-- Uses that agree where they overlap each leave their layout. -/
theorem afterAll_agree : ∀ (us : List ViewUse) (h : Left) (u : ViewUse),
    (∀ w ∈ us, View.Apart u.view w.view ∨ u.layout = w.layout) →
    (u ∈ us ∨ ∀ l m, u.view.range.Has l m → h u.view.image.id l m = some u.layout) →
    ∀ l m, u.view.range.Has l m → h.afterAll us u.view.image.id l m = some u.layout := by
  intro us
  induction us with
  | nil =>
    intro h u _ hu
    exact hu.resolve_left (by simp)
  | cons w us ih =>
    intro h u hag hu
    refine ih (h.after w) u (fun x hx => hag x (by simp [hx])) ?_
    rcases hu with hu | hu
    · rcases List.mem_cons.1 hu with rfl | hu
      · right
        intro l m hl
        unfold Left.after
        rw [if_pos ⟨rfl, hl⟩]
      · exact Or.inl hu
    · right
      intro l m hl
      unfold Left.after
      rcases hag w (by simp) with hap | he
      · rw [if_neg]
        · exact hu l m hl
        · rintro ⟨h1, h2⟩
          rcases hap with h3 | h3
          · exact h3 h1
          · exact h3 l m ⟨hl, h2⟩
      · split
        · rw [he]
        · exact hu l m hl

theorem mem_attachUses {index : Nat} {p : RunPass} {a : Attachment} (ha : a ∈ p.images) (hm : moved a = true) {v : View}
    (hv : a.img.view index = some v) : (⟨v, a.getImageLayout sepDS⟩ : ViewUse) ∈ attachUses sepDS index p := by
  unfold attachUses
  rw [List.mem_filterMap]
  exact ⟨a, ha, by rw [if_pos hm, hv]; rfl⟩

theorem base_ready {index : Nat} {p : RunPass} {h : Left} {r : Rec}
    (hag : ∀ u ∈ attachUses sepDS index p, ∀ w ∈ attachUses sepDS index p,
      View.Apart u.view w.view ∨ u.layout = w.layout)
    (b : Base fmt g0 G pend (h.afterAll (attachUses sepDS index p)) r) : Ready sepDS fmt (execAll g0 r.cmds) p index := by
  intro a ha hm v hv asp l m hasp hl
  have hu := mem_attachUses (sepDS := sepDS) ha hm hv
  exact b.gpu hasp (afterAll_agree _ h _ (fun w hw => hag _ hu w hw) (Or.inl hu) l m hl)

theorem afterAll_apart : ∀ (us : List ViewUse) (h : Left) (v : View), (∀ w ∈ us, View.Apart v w.view) →
    ∀ l m, v.range.Has l m → h.afterAll us v.image.id l m = h v.image.id l m
  | [], _, _, _, _, _, _ => rfl
  | w :: us, h, v, hap, l, m, hl => by
    show (h.after w).afterAll us _ _ _ = _
    rw [afterAll_apart us (h.after w) v (fun x hx => hap x (by simp [hx])) l m hl]
    unfold Left.after
    rw [if_neg]
    rintro ⟨h1, h2⟩
    rcases hap w (by simp) with h3 | h3
    · exact h3 h1
    · exact h3 l m ⟨hl, h2⟩

theorem base_call {h : Left} {r : Rec} (b : Base fmt g0 G pend h r) (c : Call) (hc : PlainCall c)
    (hv : ∀ u ∈ callUses [c], PlainView sepDS fmt u.view ∧ u.layout ≠ Layout.undefined) {i k : Left}
    (ho : Orderly i k h (callUses [c])) : Base fmt g0 G pend (h.afterAll (callUses [c])) (Gpu.perform sepDS r c) := by
  cases c with
  | barrier v j w f =>
    obtain ⟨rfl, hw⟩ := hc
    have ec : callUses [Call.barrier v Layout.undefined w f] = [⟨v, w.layout⟩] := rfl
    rw [ec] at hv ho ⊢
    exact base_barrier _ b (hv ⟨v, w.layout⟩ (by simp)).1 ho.1 Layout.undefined (Or.inl rfl) hw f
  | buffer q => exact base_bufferBarrier b _ _ _ _ _ _
  | work n => exact base_emit b (.work n) (fun _ => rfl) trivial
  | register t => exact absurd hc (by simp [PlainCall])
  | use v en => exact absurd hc (by simp [PlainCall])

theorem base_steps {h0 : Left} {declared : List ViewUse}
    (hd : ∀ u ∈ declared, ∀ l m, u.view.range.Has l m → h0 u.view.image.id l m = some u.layout) {i k : Left} :
    ∀ (steps : List BodyStep) (since : List ViewUse) (r : Rec), Base fmt g0 G pend (h0.afterAll since) r →
    StepsOk fmt declared since steps →
    (∀ u ∈ steps.flatMap BodyStep.uses, PlainView sepDS fmt u.view ∧ u.layout ≠ Layout.undefined) →
    Orderly i k (h0.afterAll since) (steps.flatMap BodyStep.uses) →
    Base fmt g0 G pend (h0.afterAll (since ++ steps.flatMap BodyStep.uses)) (steps.foldl (BodyStep.perform sepDS) r)
  | [], since, r, b, _, _, _ => by simpa using b
  | .call c :: rest, since, r, b, ok, hv, ho => by
    rw [List.flatMap_cons] at hv ho ⊢
    change ∀ u ∈ callUses [c] ++ _, _ at hv
    change Orderly i k _ (callUses [c] ++ _) at ho
    rw [orderly_append] at ho
    have b1 := base_call (sepDS := sepDS) b c ok.1 (fun u hu => hv u (List.mem_append_left _ hu)) ho.1
    rw [← afterAll_append] at b1
    have o2 := ho.2
    rw [← afterAll_append] at o2
    have := base_steps hd rest (since ++ callUses [c]) _ b1 ok.2 (fun u hu => hv u (List.mem_append_right _ hu)) o2
    rw [List.append_assoc] at this
    exact this
  | .cmd c needs :: rest, since, r, b, ok, hv, ho => by
    refine base_steps hd rest since _ (base_emit b c ok.1.1 (ok.1.2.1 _ ?_)) ok.2 hv ho
    intro u hu asp l m ha hl
    obtain ⟨h1, h2⟩ := ok.1.2.2 u hu
    refine b.gpu ha ?_
    rw [afterAll_apart since h0 u.view h2 l m hl]
    exact hd u h1 l m hl

theorem base_body' {index : Nat} {p : RunPass} {us : List ViewUse} (hb : BodyDoes sepDS fmt p index us) {h : Left}
    (hd : ∀ u ∈ attachUses sepDS index p, ∀ l m, u.view.range.Has l m → h u.view.image.id l m = some u.layout)
    {r : Rec} (b : Base fmt g0 G pend h r)
    (hv : ∀ u ∈ us, PlainView sepDS fmt u.view ∧ u.layout ≠ Layout.undefined) {i k : Left}
    (ho : Orderly i k h us) : Base fmt g0 G pend (h.afterAll us) (p.body index r) := by
  obtain ⟨steps, e, ok, rfl⟩ := hb r
  rw [e]
  exact base_steps hd steps [] r b ok hv ho

theorem attach_held {index : Nat} {p : RunPass} (h : Left)
    (hag : ∀ u ∈ attachUses sepDS index p, ∀ w ∈ attachUses sepDS index p,
      View.Apart u.view w.view ∨ u.layout = w.layout) :
    ∀ u ∈ attachUses sepDS index p, ∀ l m, u.view.range.Has l m →
      h.afterAll (attachUses sepDS index p) u.view.image.id l m = some u.layout :=
  fun u hu l m hl => afterAll_agree _ h u (fun w hw => hag u hu w hw) (Or.inl hu) l m hl

theorem base_body {index : Nat} {p : RunPass} {us : List ViewUse} (hb : BodyDoes sepDS fmt p index us) {h : Left}
    (hag : ∀ u ∈ attachUses sepDS index p, ∀ w ∈ attachUses sepDS index p,
      View.Apart u.view w.view ∨ u.layout = w.layout)
    {r : Rec} (b : Base fmt g0 G pend (h.afterAll (attachUses sepDS index p)) r)
    (hv : ∀ u ∈ us, PlainView sepDS fmt u.view ∧ u.layout ≠ Layout.undefined) {i k : Left}
    (ho : Orderly i k (h.afterAll (attachUses sepDS index p)) us) :
    Base fmt g0 G pend ((h.afterAll (attachUses sepDS index p)).afterAll us) (p.body index r) :=
  base_body' hb (attach_held h hag) b hv ho

theorem base_ctx {h : Left} {r : Rec} (b : Base fmt g0 G pend h r) (c : Ctx) (h1 : c.images = r.ctx.images)
    (h2 : c.implicit = r.ctx.implicit) : Base fmt g0 G pend h { r with ctx := c } := by
  refine ⟨?_, ?_, b.valid, ?_, h2.trans b.pending⟩
  · show leftIn c.images = h
    rw [h1]; exact b.tracked
  · show Mirrors fmt g0 c.images _
    rw [h1]; exact b.mirrors
  · intro i a l m s
    simp only [known, h1]
    exact b.honest i a l m s

variable {passes : List RunPass} {body : RunPass → Nat → List ViewUse}

theorem base_recordInto (hM : MixedGraph sepDS fmt passes body) (en : Nat → Bool) {p : RunPass} (hp : p ∈ passes)
    {index : Nat} {h : Left} {f f' : Frame} (b : Base fmt g0 G [] h f.recd)
    (ho : Orderly (leftIn G.inputs) (leftIn G.final.images) h
      (if en p.id then attachUses sepDS index p ++ body p index else []))
    (e : recordInto ⟨sepDS, en⟩ G p index f = some f') :
    Base fmt g0 G [] (h.afterAll (if en p.id then attachUses sepDS index p ++ body p index else [])) f'.recd := by
  unfold recordInto registerAll at e
  rw [hM.alone p hp] at e
  simp only [List.foldl_nil] at e
  by_cases hen : en p.id = true
  · rw [if_pos hen] at e ho ⊢
    split at e
    · have hr : (if (!f.initialised p.id index) = true then f.initialise p index else f).recd = f.recd := by
        split <;> rfl
      rw [hr] at e
      cases e1 : prepare ⟨sepDS, en⟩ G p index f.recd with
      | none => rw [e1] at e; simp at e
      | some r =>
        rw [e1] at e
        simp only [Option.some.injEq] at e
        subst e
        rw [orderly_append] at ho
        rw [afterAll_append]
        have b1 := base_prepare en b (fun u hu => hM.attached p hp index u (by simp [hu])) ho.1 e1
        exact base_body (hM.bodies p hp index) (hM.agree p hp index) b1
          (fun u hu => hM.attached p hp index u (by simp [hu])) ho.2
    · simp at e
  · rw [if_neg hen] at e ⊢
    simp only [Option.some.injEq] at e
    subst e
    exact b

theorem base_loop (hM : MixedGraph sepDS fmt passes body) (en : Nat → Bool) (index : Nat → Nat) :
    ∀ (ps : List RunPass), (∀ p ∈ ps, p ∈ passes) → ∀ (h : Left) (f : Frame), Base fmt g0 G [] h f.recd →
    Orderly (leftIn G.inputs) (leftIn G.final.images) h (graphUses sepDS en index body ps) →
    (∀ f', recordLoop ⟨sepDS, en⟩ G index ps f = some f' →
      Base fmt g0 G [] (h.afterAll (graphUses sepDS en index body ps)) f'.recd)
    ∧ (∀ q r, Enters ⟨sepDS, en⟩ G index ps f q r → StreamValid g0 r.cmds
      ∧ Ready sepDS fmt (execAll g0 r.cmds) q (index q.id)) := by
  intro ps
  induction ps with
  | nil =>
    intro _ h f b _
    refine ⟨?_, fun q r he => absurd he (by simp [Enters])⟩
    intro f' e
    simp only [recordLoop, Option.some.injEq] at e
    subst e; exact b
  | cons p next ih =>
    intro hs h f b ho
    have hp := hs p (by simp)
    have hk := announce_keeps ⟨sepDS, en⟩ G p next f.recd.ctx
    have b1 := base_ctx b _ hk.1 hk.2
    have ih' := ih fun x hx => hs x (by simp [hx])
    have eu : graphUses sepDS en index body (p :: next)
        = (if en p.id then attachUses sepDS (index p.id) p ++ body p (index p.id) else [])
          ++ graphUses sepDS en index body next := by
      simp [graphUses]
    rw [eu, orderly_append] at ho
    rw [eu, afterAll_append]
    refine ⟨?_, ?_⟩
    · intro f' e
      unfold recordLoop at e
      simp only at e
      split at e
      · simp at e
      · rename_i f1 e1
        exact (ih' _ f1 (base_recordInto hM en hp (f := { f with recd := _ }) b1 ho.1 e1) ho.2).1 f' e
    · rintro q r (⟨rfl, hen, e⟩ | ⟨f1, e1, he⟩)
      · have ho1 := ho.1
        have hen' : en q.id = true := hen
        rw [if_pos hen', orderly_append] at ho1
        have b2 := base_prepare en b1 (fun u hu => hM.attached q hp (index q.id) u (by simp [hu])) ho1.1 e
        exact ⟨b2.valid, base_ready (hM.agree q hp _) b2⟩
      · exact (ih' _ f1 (base_recordInto hM en hp (f := { f with recd := _ }) b1 ho.1 e1) ho.2).2 q r he

theorem base_start (deps : List Ctx)
    (hH : ∀ i a l m s, HasAspect (fmt i) a → known (startCtx deps) G i l m = some s → g0 i a l m = s.layout)
    (c : Ctx) (h1 : c.images = (startCtx deps).images) (h2 : c.implicit = (startCtx deps).implicit) :
    Base fmt g0 G [] (leftIn (startCtx deps).images) ⟨c, []⟩ := by
  refine ⟨?_, ?_, trivial, ?_, h2.trans (startCtx_implicit deps)⟩
  · show leftIn c.images = _
    rw [h1]
  · intro i a l m ha
    show match c.images.at i l m with | some s => g0 i a l m = s.layout | none => g0 i a l m = g0 i a l m
    cases hc : c.images.at i l m with
    | none => rfl
    | some s => exact hH i a l m s ha (by unfold known; rw [← h1, hc])
  · intro i a l m s ha hk _
    refine hH i a l m s ha ?_
    unfold known at hk ⊢
    simp only at hk
    rw [h1] at hk
    exact hk

/-- C92 (partial: no implicit actions, no 3D views, whole aspects; drawing passes' targets are not covered), bodies: if each
use finds its view settled, every body that is entered starts after valid commands and with every image its attachments
declare in the declared layout, whatever views the other passes used. -/
theorem parts_and_whole_ready_partial (hM : MixedGraph sepDS fmt passes body) (en : Nat → Bool) (index : Nat → Nat)
    (deps : List Ctx)
    (hH : ∀ i a l m s, HasAspect (fmt i) a → known (startCtx deps) G i l m = some s → g0 i a l m = s.layout)
    (ho : Orderly (leftIn G.inputs) (leftIn G.final.images) (leftIn (startCtx deps).images)
      (graphUses sepDS en index body passes))
    (ini : Nat → Nat → Bool) (log : List Event) (q : RunPass) (r : Rec)
    (he : Enters ⟨sepDS, en⟩ G index passes (frameStart sepDS deps passes ini log) q r) :
    StreamValid g0 r.cmds ∧ Ready sepDS fmt (execAll g0 r.cmds) q (index q.id) := by
  have hk := firstAnnounce_keeps sepDS passes (startCtx deps)
  exact (base_loop hM en index passes (fun _ h => h) _ (frameStart sepDS deps passes ini log)
    (base_start deps hH _ hk.1 hk.2) ho).2 q r he

/-- C92 (partial, as above), streams: if each use finds its view settled, the stream is valid, and the layouts the graph
remembers are exactly those the uses left, which are those of the GPU once the stream executed. -/
theorem parts_and_whole_valid_partial (hM : MixedGraph sepDS fmt passes body) (en : Nat → Bool) (index : Nat → Nat)
    (deps : List Ctx)
    (hH : ∀ i a l m s, HasAspect (fmt i) a → known (startCtx deps) G i l m = some s → g0 i a l m = s.layout)
    (ho : Orderly (leftIn G.inputs) (leftIn G.final.images) (leftIn (startCtx deps).images)
      (graphUses sepDS en index body passes))
    (ini : Nat → Nat → Bool) (log : List Event) (G' : GraphSt) (f : Frame)
    (e : record ⟨sepDS, en⟩ G deps index passes ini log = some (G', f)) :
    StreamValid g0 f.recd.cmds
    ∧ leftIn G'.final.images = (leftIn (startCtx deps).images).afterAll (graphUses sepDS en index body passes)
    ∧ (∀ i a l m x, HasAspect (fmt i) a →
        (leftIn (startCtx deps).images).afterAll (graphUses sepDS en index body passes) i l m = some x →
        execAll g0 f.recd.cmds i a l m = x)
    ∧ G'.inputs = G.inputs := by
  unfold record at e
  simp only at e
  split at e
  · simp at e
  · rename_i f1 e1
    simp only [Option.some.injEq, Prod.mk.injEq] at e
    obtain ⟨rfl, rfl⟩ := e
    have hk := firstAnnounce_keeps sepDS passes (startCtx deps)
    have b := (base_loop hM en index passes (fun _ h => h) _ (frameStart sepDS deps passes ini log)
      (base_start deps hH _ hk.1 hk.2) ho).1 f1 e1
    exact ⟨b.valid, b.tracked, fun i a l m x ha hx => b.gpu ha hx, rfl⟩

/-- Each execution's uses find their views settled, given what the previous one left. -/
def OrderlyRuns (sepDS : Bool) (body : RunPass → Nat → List ViewUse) (passes : List RunPass) (inputs : Left) :
    Left → List Exec → Prop
  | _, [] => True
  | kept, x :: xs => Orderly inputs kept .nothing (graphUses sepDS x.enabled x.index body passes)
    ∧ OrderlyRuns sepDS body passes inputs (Left.nothing.afterAll (graphUses sepDS x.enabled x.index body passes)) xs

/-- C92 (partial, as above) over any number of executions, with passes enabled and disabled in any way between them: if in
each execution each use finds its view settled, all the streams are valid. -/
theorem parts_and_whole_executions_partial (hM : MixedGraph sepDS fmt passes body) (xs : List Exec) :
    ∀ (G : GraphSt) (ini : Nat → Nat → Bool) (log : List Event) (g : Layouts) (out : List (Layouts × List Cmd)),
    (∀ i a l m s, HasAspect (fmt i) a → G.final.images.at i l m = some s → g i a l m = s.layout) →
    OrderlyRuns sepDS body passes (leftIn G.inputs) (leftIn G.final.images) xs →
    Executions sepDS passes G ini log g xs out → ∀ o ∈ out, StreamValid o.1 o.2 := by
  induction xs with
  | nil =>
    intro G ini log g out _ _ h o ho
    cases h
    simp at ho
  | cons x xs ih =>
    intro G ini log g out htrue hor h o ho
    cases h with
    | step hg e rest =>
      rename_i g' G' f out'
      have hH := (honest_restored (V := fun _ => False) (fun _ h => h.elim) (fun _ h => h.elim) htrue hg).true'
      obtain ⟨h1, h2, h3, h4⟩ := parts_and_whole_valid_partial hM x.enabled x.index [] hH hor.1 ini log G' f e
      rcases List.mem_cons.1 ho with rfl | ho
      · exact h1
      · refine ih G' f.initialised f.log _ out' ?_ ?_ rest o ho
        · intro i a l m s ha hs
          refine h3 i a l m s.layout ha ?_
          rw [← h2]
          exact leftIn_some.2 ⟨s, hs, rfl⟩
        · rw [h2, h4]
          exact hor.2

/-! ### Non-vacuity, and what goes wrong -/

def mImg : Image := ⟨1, 37, 2, 1, 64, 64, 1⟩
def mLevel (k : Nat) : View := ⟨11 + k, mImg, .d2, 37, ⟨Aspect.color, k, 1, 0, 1⟩⟩
def mWhole : View := ⟨20, mImg, .d2, 37, ⟨Aspect.color, 0, 2, 0, 1⟩⟩
/-- Compute passes writing each one level of the image. -/
def mWrite (k : Nat) : RunPass :=
  ⟨1 + k, 1, true, ⟨Access.shaderRead, Stage.computeShader⟩, [ImageAdder.outputStorage.attach (1 + k) 0 [mLevel k]], [], [],
    fun _ r => r.emit (.work k)⟩
/-- A pass sampling the whole image. -/
def mRead : RunPass :=
  ⟨3, 1, false, ⟨Access.shaderRead, Stage.fragmentShader⟩, [ImageAdder.sampled.attach 3 0 [mWhole]], [], [],
    fun _ r => r.emit (.work 3)⟩
def mPasses : List RunPass := [mWrite 0, mWrite 1, mRead]
def mAll : Exec := ⟨fun _ => true, fun _ => 0⟩
def mSkip : Exec := ⟨fun i => i != 2, fun _ => 0⟩

theorem mWrite0_uses (index : Nat) : attachUses false index (mWrite 0) = [⟨mLevel 0, Layout.general⟩] := rfl
theorem mWrite1_uses (index : Nat) : attachUses false index (mWrite 1) = [⟨mLevel 1, Layout.general⟩] := rfl
theorem mRead_uses (index : Nat) : attachUses false index mRead = [⟨mWhole, Layout.shaderReadOnly⟩] := rfl

theorem example_mixed : MixedGraph false (fun _ => 37) mPasses (fun _ _ => []) := by
  refine ⟨?_, ?_, ?_, ?_⟩
  · intro p hp index u hu
    simp only [mPasses, List.mem_cons, List.not_mem_nil, or_false] at hp
    rcases hp with rfl | rfl | rfl
    · rw [mWrite0_uses] at hu
      simp at hu
      subst hu
      exact ⟨⟨rfl, by decide, by decide, by decide⟩, by decide⟩
    · rw [mWrite1_uses] at hu
      simp at hu
      subst hu
      exact ⟨⟨rfl, by decide, by decide, by decide⟩, by decide⟩
    · rw [mRead_uses] at hu
      simp at hu
      subst hu
      exact ⟨⟨rfl, by decide, by decide, by decide⟩, by decide⟩
  · intro p hp
    simp only [mPasses, List.mem_cons, List.not_mem_nil, or_false] at hp
    rcases hp with rfl | rfl | rfl <;> rfl
  · intro p hp index u hu w hw
    simp only [mPasses, List.mem_cons, List.not_mem_nil, or_false] at hp
    right
    rcases hp with rfl | rfl | rfl
    all_goals
      first | rw [mWrite0_uses] at hu hw | rw [mWrite1_uses] at hu hw | rw [mRead_uses] at hu hw
      simp at hu hw
      rw [hu, hw]
  · intro p hp index r
    simp only [mPasses, List.mem_cons, List.not_mem_nil, or_false] at hp
    rcases hp with rfl | rfl | rfl
    · exact ⟨[.call (.work 0)], rfl, ⟨trivial, trivial⟩, rfl⟩
    · exact ⟨[.call (.work 1)], rfl, ⟨trivial, trivial⟩, rfl⟩
    · exact ⟨[.cmd (.work 3) []], rfl, ⟨⟨fun _ => rfl, fun _ _ => trivial, by simp⟩, trivial⟩, rfl⟩

theorem mAll_uses : graphUses false mAll.enabled mAll.index (fun _ _ => []) mPasses
    = [⟨mLevel 0, Layout.general⟩, ⟨mLevel 1, Layout.general⟩, ⟨mWhole, Layout.shaderReadOnly⟩] := rfl

/-- With all passes enabled, any number of executions find every view settled: two levels are written apart, then the whole
is sampled. -/
theorem example_orderly (n : Nat) : ∀ kept : Left,
    (∀ l m, kept 1 l m = none) ∨ (∀ l m, mWhole.range.Has l m → kept 1 l m = some Layout.shaderReadOnly) →
    OrderlyRuns false (fun _ _ => []) mPasses .nothing kept (List.replicate n mAll) := by
  induction n with
  | zero => intro _ _; trivial
  | succ n ih =>
    intro kept hk
    have hset : ∀ v : View, v.image.id = 1 → (∀ l m, v.range.Has l m → mWhole.range.Has l m) → kept.Settled v := by
      intro v hi hs
      rcases hk with hk | hk
      · exact Or.inl fun l m _ => by rw [hi]; exact hk l m
      · exact Or.inr ⟨Layout.shaderReadOnly, by decide, fun l m h => by rw [hi]; exact hk l m (hs l m h)⟩
    refine ⟨?_, ?_⟩
    · rw [mAll_uses]
      refine ⟨Or.inl fun _ _ _ => rfl, fun _ => ⟨Or.inl fun _ _ _ => rfl, hset _ rfl ?_⟩, ?_⟩
      · intro l m h
        simp [mLevel, mWhole, Range.Has] at h ⊢
        omega
      refine ⟨Or.inl ?_, fun _ => ⟨Or.inl fun _ _ _ => rfl, hset _ rfl ?_⟩, ?_⟩
      · intro l m h
        simp [mLevel, Range.Has] at h
        simp [Left.after, Left.nothing, mLevel, Range.Has]
        omega
      · intro l m h
        simp [mLevel, mWhole, Range.Has] at h ⊢
        omega
      refine ⟨Or.inr ⟨Layout.general, by decide, ?_⟩, fun _ => ⟨Or.inl fun _ _ _ => rfl, hset _ rfl fun _ _ h => h⟩, trivial⟩
      intro l m h
      simp [mWhole, Range.Has] at h
      simp [Left.after, Left.nothing, mLevel, mImg, mWhole, Range.Has]
      omega
    · refine ih _ (Or.inr ?_)
      intro l m h
      rw [mAll_uses]
      show (Left.after _ _) 1 l m = _
      unfold Left.after
      rw [if_pos ⟨rfl, h⟩]

theorem mAll_none : OrderlyRuns false (fun _ _ => []) mPasses (leftIn xG.inputs) (leftIn xG.final.images)
    (List.replicate 5 mAll) := example_orderly 5 _ (Or.inl fun _ _ => rfl)

/-- The streams of two executions, the pass writing the second level being disabled in the second. -/
def mStreams : Option (List Cmd × List Cmd) :=
  (record ⟨false, mAll.enabled⟩ xG [] mAll.index mPasses (fun _ _ => false) []).bind fun a =>
    (record ⟨false, mSkip.enabled⟩ a.1 [] mSkip.index mPasses a.2.initialised a.2.log).map fun b =>
      (a.2.recd.cmds, b.2.recd.cmds)

def mFirst : List Cmd :=
  [.imageBarrier 1 ⟨1, 0, 1, 0, 1⟩ ⟨0, 16384⟩ ⟨0, 8192⟩ 0 1, .work 0, .imageBarrier 1 ⟨1, 1, 1, 0, 1⟩ ⟨0, 16384⟩ ⟨0, 8192⟩ 0 1,
    .work 1, .imageBarrier 1 ⟨1, 0, 2, 0, 1⟩ ⟨0, 8192⟩ ⟨32, 128⟩ 1 5, .work 3]
def mSecond : List Cmd :=
  [.imageBarrier 1 ⟨1, 0, 1, 0, 1⟩ ⟨0, 16384⟩ ⟨0, 8192⟩ 0 1, .work 0, .imageBarrier 1 ⟨1, 0, 2, 0, 1⟩ ⟨0, 8192⟩ ⟨32, 128⟩ 1 5,
    .work 3]

/-- C92 is false when a use finds its view half used: the first execution is valid; in the second one the pass writing the
second level is disabled, and the barrier of the whole image says GENERAL for that level too, which is in
SHADER_READ_ONLY. -/
theorem half_used_invalid (g : Layouts) :
    mStreams = some (mFirst, mSecond) ∧ StreamValid g mFirst ∧ ¬ StreamValid (execAll g mFirst) mSecond := by
  refine ⟨by decide +kernel, ?_, ?_⟩
  · refine ⟨Or.inl rfl, trivial, Or.inl rfl, trivial, Or.inr ?_, trivial, trivial⟩
    rintro a l m ⟨h1, h2⟩
    simp [Range.Has] at h2
    obtain ⟨rfl, hm⟩ : l = 0 ∧ (m = 0 ∨ m = 1) := by omega
    have ha : Nat.testBit 1 a = true := h1
    rcases hm with rfl | rfl <;> simp [exec, Selects, Range.Has, ha]
  · rintro ⟨-, -, h, -⟩
    rcases h with h | h
    · simp [Layout.undefined] at h
    · have := h 0 0 1 (by decide)
      simp [exec, execAll, mFirst, Selects, Range.Has] at this

/-- What the second execution does isn't orderly, so the theorems above don't speak of it. -/
theorem half_used_not_settled :
    ¬ OrderlyRuns false (fun _ _ => []) mPasses .nothing .nothing [mAll, mSkip] := by
  rintro ⟨-, h, -⟩
  have e : graphUses false mSkip.enabled mSkip.index (fun _ _ => []) mPasses
    = [⟨mLevel 0, Layout.general⟩, ⟨mWhole, Layout.shaderReadOnly⟩] := rfl
  rw [e] at h
  obtain ⟨-, -, h, -⟩ := h
  rcases h with h | ⟨x, -, h⟩
  · have := h 0 0 (by decide)
    simp [Left.after, mLevel, mWhole, mImg, Range.Has] at this
  · have := h 0 1 (by decide)
    simp [Left.after, Left.nothing, mLevel, mWhole, mImg, Range.Has] at this

end Verif.Run
