import Verif.Model.Layout
import Verif.Spec.Layout
import Verif.Lemmas.Util
/- Helper lemmas for the layout tracker. -/
namespace Verif

theorem Range.nonEmpty_iff (r : Range) : r.NonEmpty ↔ ∃ l m, r.Has l m := by
  constructor
  · rintro ⟨h1, h2⟩
    exact ⟨r.baseLayer, r.baseMip, by unfold Range.Has; omega⟩
  · rintro ⟨l, m, h⟩
    unfold Range.Has at h
    unfold Range.NonEmpty
    omega

theorem inner_fold (bl bm l n : Nat) (s : LayoutState) (m : LayerStates) (layer mip : Nat) :
    ((List.range n).foldl (fun m v => fun layer mip =>
        if layer = bl + l ∧ mip = bm + v then some s else m layer mip) m) layer mip
      = if layer = bl + l ∧ bm ≤ mip ∧ mip < bm + n then some s else m layer mip := by
  induction n with
  | zero => simp; omega
  | succ n ih =>
    rw [List.range_succ, List.foldl_append]
    simp only [List.foldl_cons, List.foldl_nil]
    rw [ih]
    by_cases h1 : layer = bl + l ∧ mip = bm + n
    · rw [if_pos h1, if_pos (by omega)]
    · rw [if_neg h1]
      by_cases h2 : layer = bl + l ∧ bm ≤ mip ∧ mip < bm + n
      · rw [if_pos h2, if_pos (by omega)]
      · rw [if_neg h2, if_neg (by omega)]

/-- Pointwise description of `addSubresourceRangeLayout`. -/
theorem addSubresourceRangeLayout_apply (m : LayerStates) (r : Range) (s : LayoutState) (layer mip : Nat) :
    addSubresourceRangeLayout m r s layer mip = if r.Has layer mip then some s else m layer mip := by
  unfold addSubresourceRangeLayout
  have : ∀ n, ((List.range n).foldl (fun m l =>
    (List.range r.levels).foldl (fun m v =>
      fun layer mip => if layer = r.baseLayer + l ∧ mip = r.baseMip + v then some s else m layer mip) m) m)
        layer mip
      = if r.baseLayer ≤ layer ∧ layer < r.baseLayer + n ∧ r.baseMip ≤ mip ∧ mip < r.baseMip + r.levels
        then some s else m layer mip := by
    intro n
    induction n with
    | zero => simp; omega
    | succ n ih =>
      rw [List.range_succ, List.foldl_append]
      simp only [List.foldl_cons, List.foldl_nil]
      rw [inner_fold, ih]
      by_cases h1 : layer = r.baseLayer + n ∧ r.baseMip ≤ mip ∧ mip < r.baseMip + r.levels
      · rw [if_pos h1, if_pos (by omega)]
      · rw [if_neg h1]
        by_cases h2 : r.baseLayer ≤ layer ∧ layer < r.baseLayer + n ∧ r.baseMip ≤ mip
            ∧ mip < r.baseMip + r.levels
        · rw [if_pos h2, if_pos (by omega)]
        · rw [if_neg h2, if_neg (by omega)]
  exact this r.layers

theorem mem_foundStates {m : LayerStates} {r : Range} {s : LayoutState} :
    s ∈ foundStates m r ↔ ∃ l v, r.Has l v ∧ m l v = some s := by
  unfold foundStates
  simp only [List.mem_flatMap, List.mem_range, List.mem_filterMap]
  constructor
  · rintro ⟨l, hl, v, hv, h⟩
    exact ⟨_, _, by unfold Range.Has; omega, h⟩
  · rintro ⟨l, v, h, hs⟩
    unfold Range.Has at h
    refine ⟨l - r.baseLayer, by omega, v - r.baseMip, by omega, ?_⟩
    rw [show r.baseLayer + (l - r.baseLayer) = l by omega, show r.baseMip + (v - r.baseMip) = v by omega]
    exact hs

/-- The state of the `std::map` while scanning: sorted by layout, strictly. -/
def Sorted (l : List LayoutState) : Prop := l.Pairwise (fun a b => a.layout < b.layout)

theorem emplaceState_layouts (s : LayoutState) (l : List LayoutState) (x : Nat) :
    (∃ t ∈ emplaceState s l, t.layout = x) ↔ x = s.layout ∨ ∃ t ∈ l, t.layout = x := by
  induction l with
  | nil => simp [emplaceState, eq_comm]
  | cons t r ih =>
    unfold emplaceState
    split
    · simp [eq_comm]
    · split
      · rename_i h1 h2
        simp
        intro h; left; omega
      · simp at ih ⊢
        rw [ih]
        constructor
        · rintro (h | h | h)
          · exact Or.inr (Or.inl h)
          · exact Or.inl h
          · exact Or.inr (Or.inr h)
        · rintro (h | h | h)
          · exact Or.inr (Or.inl h)
          · exact Or.inl h
          · exact Or.inr (Or.inr h)

theorem emplaceState_sorted (s : LayoutState) (l : List LayoutState) (h : Sorted l) :
    Sorted (emplaceState s l) := by
  induction l with
  | nil => simp [emplaceState, Sorted]
  | cons t r ih =>
    unfold Sorted at h
    rw [List.pairwise_cons] at h
    unfold emplaceState
    split
    · rename_i hlt
      unfold Sorted
      simp only [List.pairwise_cons]
      refine ⟨?_, h⟩
      intro a ha
      simp at ha
      rcases ha with rfl | ha
      · exact hlt
      · exact Nat.lt_trans hlt (h.1 a ha)
    · split
      · unfold Sorted
        simp only [List.pairwise_cons]
        exact h
      · rename_i h1 h2
        unfold Sorted
        rw [List.pairwise_cons]
        refine ⟨?_, ih h.2⟩
        intro a ha
        have := (emplaceState_layouts s r a.layout).1 ⟨a, ha, rfl⟩
        rcases this with e | ⟨b, hb, e⟩
        · omega
        · have := h.1 b hb; omega

/-- Bitwise coverage of accesses. -/
def Covers (big small : Nat) : Prop := small &&& big = small

theorem covers_or_left (a b : Nat) : Covers (a ||| b) a := by
  unfold Covers; apply Nat.eq_of_testBit_eq; intro i; simp; cases a.testBit i <;> simp

theorem covers_or_right (a b : Nat) : Covers (a ||| b) b := by
  unfold Covers; apply Nat.eq_of_testBit_eq; intro i; simp; exact Or.inr

theorem Covers.trans {a b c : Nat} (h1 : Covers a b) (h2 : Covers b c) : Covers a c := by
  unfold Covers at *
  apply Nat.eq_of_testBit_eq
  intro i
  have e1 := congrArg (fun x => x.testBit i) h1
  have e2 := congrArg (fun x => x.testBit i) h2
  simp at e1 e2 ⊢
  intro h; exact e1 (e2 h)

theorem Covers.refl (a : Nat) : Covers a a := by simp [Covers]

theorem emplaceState_mem_covers (s : LayoutState) (l : List LayoutState) :
    (∀ t ∈ l, ∃ u ∈ emplaceState s l, u.layout = t.layout ∧ Covers u.state.access t.state.access) ∧
    (∃ u ∈ emplaceState s l, u.layout = s.layout ∧ Covers u.state.access s.state.access) := by
  induction l with
  | nil => simp [emplaceState, Covers.refl]
  | cons t r ih =>
    unfold emplaceState
    split
    · refine ⟨fun u hu => ⟨u, by simp at hu ⊢; exact Or.inr hu, rfl, Covers.refl _⟩, s, by simp, rfl, Covers.refl _⟩
    · split
      · rename_i h1 h2
        refine ⟨?_, ⟨_, List.mem_cons_self, by simp [h2], covers_or_right _ _⟩⟩
        intro u hu
        simp at hu
        rcases hu with rfl | hu
        · exact ⟨_, List.mem_cons_self, rfl, covers_or_left _ _⟩
        · exact ⟨u, by simp [hu], rfl, Covers.refl _⟩
      · refine ⟨?_, ?_⟩
        · intro u hu
          simp at hu
          rcases hu with rfl | hu
          · exact ⟨u, by simp, rfl, Covers.refl _⟩
          · obtain ⟨v, hv, h⟩ := ih.1 u hu
            exact ⟨v, by simp [hv], h⟩
        · obtain ⟨v, hv, h⟩ := ih.2
          exact ⟨v, by simp [hv], h⟩

/-- What the scan has computed after the found states `fs`. -/
structure Scan (fs acc : List LayoutState) : Prop where
  sorted : Sorted acc
  layouts : ∀ x, (∃ t ∈ acc, t.layout = x) ↔ ∃ t ∈ fs, t.layout = x
  covers : ∀ t ∈ fs, ∃ u ∈ acc, u.layout = t.layout ∧ Covers u.state.access t.state.access

theorem scan_foldl (fs pre acc : List LayoutState) (h : Scan pre acc) :
    Scan (pre ++ fs) (fs.foldl (fun acc s => emplaceState s acc) acc) := by
  induction fs generalizing pre acc with
  | nil => simpa using h
  | cons s fs ih =>
    have := ih (pre ++ [s]) (emplaceState s acc) ⟨emplaceState_sorted _ _ h.sorted, ?_, ?_⟩
    · simpa using this
    · intro x
      rw [emplaceState_layouts, h.layouts]
      simp only [List.mem_append, List.mem_singleton]
      constructor
      · rintro (h | ⟨t, ht, e⟩)
        · exact ⟨s, Or.inr rfl, h.symm⟩
        · exact ⟨t, Or.inl ht, e⟩
      · rintro ⟨t, ht | rfl, e⟩
        · exact Or.inr ⟨t, ht, e⟩
        · exact Or.inl e.symm
    · intro t ht
      have hm := emplaceState_mem_covers s acc
      simp only [List.mem_append, List.mem_singleton] at ht
      rcases ht with ht | rfl
      · obtain ⟨u, hu, e, c⟩ := h.covers t ht
        obtain ⟨v, hv, e', c'⟩ := hm.1 u hu
        exact ⟨v, hv, e'.trans e, c'.trans c⟩
      · exact hm.2

theorem scan_found (m : LayerStates) (r : Range) :
    Scan (foundStates m r) ((foundStates m r).foldl (fun acc s => emplaceState s acc) []) := by
  have := scan_foldl (foundStates m r) [] [] ⟨List.Pairwise.nil, by simp, by simp⟩
  simpa using this

theorem foldl_uniform (fs : List LayoutState) (s : LayoutState) (h : ∀ t ∈ fs, t = s) (hne : fs ≠ []) :
    fs.foldl (fun acc s => emplaceState s acc) [] = [s] := by
  cases fs with
  | nil => exact absurd rfl hne
  | cons a r =>
    have ha := h a (by simp)
    subst ha
    simp only [List.foldl_cons, emplaceState]
    have : ∀ r : List LayoutState, (∀ t ∈ r, t = a) →
        r.foldl (fun acc s => emplaceState s acc) [a] = [a] := by
      intro r hr
      induction r with
      | nil => rfl
      | cons b r ih =>
        have hb := hr b (by simp)
        subst hb
        simp only [List.foldl_cons, emplaceState]
        simp
        exact ih (fun t ht => hr t (by simp [ht]))
    exact this r (fun t ht => h t (by simp [ht]))

/-- A non-empty set of found states that are all `s` yields `s`. -/
theorem getSubresourceRangeLayout_uniform {m : LayerStates} {r : Range} {s : LayoutState}
    (hne : ∃ l v, r.Has l v ∧ (m l v).isSome) (h : ∀ l v t, r.Has l v → m l v = some t → t = s) :
    getSubresourceRangeLayout m r = s := by
  unfold getSubresourceRangeLayout
  rw [foldl_uniform (foundStates m r) s]
  · intro t ht
    obtain ⟨l, v, h1, h2⟩ := mem_foundStates.1 ht
    exact h l v t h1 h2
  · obtain ⟨l, v, h1, h2⟩ := hne
    obtain ⟨t, ht⟩ := Option.isSome_iff_exists.1 h2
    exact List.ne_nil_of_mem (mem_foundStates.2 ⟨l, v, h1, ht⟩)

theorem foundStates_congr {m m' : LayerStates} {r : Range}
    (h : ∀ l v, r.Has l v → m l v = m' l v) : foundStates m r = foundStates m' r := by
  unfold foundStates
  apply flatMap_congr'
  intro l hl
  apply filterMap_congr'
  intro v hv
  apply h
  simp at hl hv
  unfold Range.Has
  omega

theorem getSubresourceRangeLayout_congr {m m' : LayerStates} {r : Range}
    (h : ∀ l v, r.Has l v → m l v = m' l v) :
    getSubresourceRangeLayout m r = getSubresourceRangeLayout m' r := by
  unfold getSubresourceRangeLayout
  rw [foundStates_congr h]

/-- `getVirtualRange` denotes what `Designates` says. -/
theorem virtual_designates (img : Image) (vt : ViewType) (r : Range) :
    Designates img vt r (getVirtualRange img vt r) := by
  unfold getVirtualRange
  split
  · rename_i h
    refine ⟨⟨rfl, rfl⟩, fun _ _ => ⟨rfl, ?_⟩, fun hn => absurd h hn⟩
    simp [Nat.shiftRight_eq_div_pow]
  · rename_i h
    exact ⟨⟨rfl, rfl⟩, fun h1 h2 => absurd ⟨h1, h2⟩ h, fun _ => ⟨rfl, rfl⟩⟩

theorem Designates.has_iff {img vt r a} (h : Designates img vt r a) (l m : Nat) :
    a.Has l m ↔ (getVirtualRange img vt r).Has l m := by
  have h' := virtual_designates img vt r
  by_cases hc : vt = .d3 ∧ (r.levels = 1 ∨ r.levels = img.mipLevels)
  · have e1 := h.slices hc.1 hc.2
    have e2 := h'.slices hc.1 hc.2
    unfold Range.Has
    rw [e1.1, e1.2, e2.1, e2.2, h.mips.1, h.mips.2, h'.mips.1, h'.mips.2]
  · have e1 := h.plain hc
    have e2 := h'.plain hc
    unfold Range.Has
    rw [e1.1, e1.2, e2.1, e2.2, h.mips.1, h.mips.2, h'.mips.1, h'.mips.2]


theorem LayoutMap.at_setState (m : LayoutMap) (img : Image) (vt : ViewType) (r : Range) (s : LayoutState)
    (i layer mip : Nat) :
    (m.setState img vt r s).at i layer mip
      = if i = img.id ∧ (getVirtualRange img vt r).Has layer mip then some s else m.at i layer mip := by
  unfold LayoutMap.at LayoutMap.setState
  by_cases hi : i = img.id
  · subst hi
    simp only [if_true, true_and, addSubresourceRangeLayout_apply]
    split
    · rfl
    · cases m img.id <;> simp
  · simp [hi]

theorem LayoutMap.setState_isSome (m : LayoutMap) (img : Image) (vt r s) :
    ∃ x, (m.setState img vt r s) img.id = some x := by
  simp [LayoutMap.setState]

/-- `getState` only depends on the image's entry inside the designated range. -/
theorem LayoutMap.getState_uniform {m : LayoutMap} {img : Image} {vt : ViewType} {r : Range} {s : LayoutState}
    (hne : ∃ l v, (getVirtualRange img vt r).Has l v ∧ (m.at img.id l v).isSome)
    (h : ∀ l v t, (getVirtualRange img vt r).Has l v → m.at img.id l v = some t → t = s) :
    m.getState img vt r = s := by
  unfold LayoutMap.getState LayoutMap.at at *
  cases hm : m img.id with
  | none => simp [hm] at hne
  | some x => simp only [hm] at hne h ⊢; exact getSubresourceRangeLayout_uniform hne h

end Verif
