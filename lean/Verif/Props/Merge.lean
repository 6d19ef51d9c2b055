import Verif.Spec.Merge
/-
C26: merged views.
-/
namespace Verif.Merge

/-- What is known of the range after some views, in the direction that is merged. -/
structure Box (base count : Range → Nat) (rs : List Range) (r : Range) : Prop where
  low : ∃ x ∈ rs, base x = base r
  high : ∃ x ∈ rs, base x + count x = base r + count r
  sub : ∀ x ∈ rs, base r ≤ base x ∧ base x + count x ≤ base r + count r

theorem add32_eq (a b : Nat) (h : a + b < 2 ^ 32) : add32 a b = a + b := Nat.mod_eq_of_lt h
theorem sub32_eq (a b : Nat) (ha : a < 2 ^ 32) (h : b ≤ a) : sub32 a b = a - b := by
  unfold sub32
  rw [show a + 2 ^ 32 - b = (a - b) + 2 ^ 32 by omega, Nat.add_mod_right, Nat.mod_eq_of_lt (by omega)]

theorem step_explicit (mm ml : Bool) (d v : Range) (hd : Explicit d) (hv : Explicit v) :
    Explicit (step mm ml d v)
    ∧ (mm = true → (step mm ml d v).baseMip + (step mm ml d v).levels = max (d.baseMip + d.levels) (v.baseMip + v.levels))
    ∧ (ml = true → (step mm ml d v).baseLayer + (step mm ml d v).layers
        = max (d.baseLayer + d.layers) (v.baseLayer + v.layers)) := by
  obtain ⟨d1, d2, d3, d4⟩ := hd
  obtain ⟨v1, v2, v3, v4⟩ := hv
  unfold step Explicit
  simp only
  rw [add32_eq _ _ (by omega), add32_eq _ _ (by omega), add32_eq _ _ (by omega), add32_eq _ _ (by omega),
    sub32_eq _ _ (by omega) (by omega), sub32_eq _ _ (by omega) (by omega)]
  cases mm <;> cases ml <;> simp <;> omega

theorem step_base (mm ml : Bool) (d v : Range) :
    (step mm ml d v).baseMip = min v.baseMip d.baseMip ∧ (step mm ml d v).baseLayer = min v.baseLayer d.baseLayer
    ∧ (step mm ml d v).aspect = d.aspect := ⟨rfl, rfl, rfl⟩

theorem box_step (base count : Range → Nat) (rs : List Range) (d v r : Range) (h : Box base count rs d)
    (h1 : base r = min (base v) (base d)) (h2 : base r + count r = max (base d + count d) (base v + count v)) :
    Box base count (rs ++ [v]) r := by
  obtain ⟨⟨x, hx, e1⟩, ⟨y, hy, e2⟩, hs⟩ := h
  refine ⟨?_, ?_, ?_⟩
  · by_cases hle : base v ≤ base d
    · exact ⟨v, by simp, by omega⟩
    · exact ⟨x, by simp [hx], by omega⟩
  · by_cases hle : base d + count d ≤ base v + count v
    · exact ⟨v, by simp, by omega⟩
    · exact ⟨y, by simp [hy], by omega⟩
  · intro z hz
    rcases List.mem_append.1 hz with hz | hz
    · have := hs z hz; omega
    · simp only [List.mem_singleton] at hz
      subst hz; omega

theorem fold_spec (mm ml : Bool) : ∀ (vs : List Range) (d : Range) (rs : List Range), Explicit d →
    (∀ v ∈ vs, Explicit v) → (mm = true → Box Range.baseMip Range.levels rs d) →
    (ml = true → Box Range.baseLayer Range.layers rs d) →
    let r := vs.foldl (step mm ml) d
    Explicit r ∧ r.aspect = d.aspect ∧ (mm = true → Box Range.baseMip Range.levels (rs ++ vs) r)
    ∧ (ml = true → Box Range.baseLayer Range.layers (rs ++ vs) r) := by
  intro vs
  induction vs with
  | nil => intro d rs hd _ h1 h2; simpa using ⟨hd, h1, h2⟩
  | cons v vs ih =>
    intro d rs hd hv h1 h2
    obtain ⟨e1, e2, e3⟩ := step_explicit mm ml d v hd (hv v (by simp))
    have := ih (step mm ml d v) (rs ++ [v]) e1 (fun x hx => hv x (by simp [hx]))
      (fun hm => box_step _ _ _ _ _ _ (h1 hm) rfl (e2 hm)) (fun hm => box_step _ _ _ _ _ _ (h2 hm) rfl (e3 hm))
    simpa [step_base] using this

theorem mergeViews_range (cube mm ml : Bool) (v : Src) (vs : List Src) :
    (mergeViews cube mm ml v vs).range = (vs.map Src.range).foldl (step mm ml) v.range := by
  unfold mergeViews
  simp only
  rw [List.foldl_map]

theorem box_single (base count : Range → Nat) (r : Range) : Box base count [r] r :=
  ⟨⟨r, by simp, rfl⟩, ⟨r, by simp, rfl⟩, by simp⟩

/-- C26: merging levels and layers gives the smallest range that contains those of all the views; image, format and
aspect are those of the first view. -/
theorem merged_is_bounding_box (cube : Bool) (v : Src) (vs : List Src) (h : ∀ x ∈ v :: vs, Explicit x.range) :
    let m := mergeViews cube true true v vs
    (∀ x ∈ v :: vs, x.range.Sub m.range)
    ∧ (∃ x ∈ v :: vs, x.range.baseMip = m.range.baseMip)
    ∧ (∃ x ∈ v :: vs, x.range.baseMip + x.range.levels = m.range.baseMip + m.range.levels)
    ∧ (∃ x ∈ v :: vs, x.range.baseLayer = m.range.baseLayer)
    ∧ (∃ x ∈ v :: vs, x.range.baseLayer + x.range.layers = m.range.baseLayer + m.range.layers)
    ∧ Explicit m.range ∧ m.image = v.image ∧ m.format = v.format ∧ m.range.aspect = v.range.aspect := by
  have hf := fold_spec true true (vs.map Src.range) v.range [v.range] (h v (by simp))
    (by intro x hx; obtain ⟨y, hy, rfl⟩ := List.mem_map.1 hx; exact h y (by simp [hy]))
    (fun _ => box_single _ _ _) (fun _ => box_single _ _ _)
  simp only at hf ⊢
  rw [← mergeViews_range cube true true] at hf
  obtain ⟨f1, f2, f3, f4⟩ := hf
  have f3 := f3 trivial
  have f4 := f4 trivial
  have lift : ∀ p : Range → Prop, (∃ x ∈ [v.range] ++ vs.map Src.range, p x) → ∃ x ∈ v :: vs, p x.range := by
    rintro p ⟨x, hx, hp⟩
    rcases List.mem_append.1 hx with hx | hx
    · simp only [List.mem_singleton] at hx; exact ⟨v, by simp, by rw [← hx]; exact hp⟩
    · obtain ⟨y, hy, rfl⟩ := List.mem_map.1 hx; exact ⟨y, by simp [hy], hp⟩
  refine ⟨?_, lift _ f3.low, lift _ f3.high, lift _ f4.low, lift _ f4.high, f1, rfl, rfl, f2⟩
  intro x hx l m hm
  have hx' : x.range ∈ [v.range] ++ vs.map Src.range := by
    rcases List.mem_cons.1 hx with rfl | hx
    · simp
    · simp only [List.mem_append, List.mem_map]; exact .inr ⟨x, hx, rfl⟩
  have g1 := f3.sub _ hx'
  have g2 := f4.sub _ hx'
  unfold Range.Has at *
  omega

/-- A merged view of some views, only one of several directions being merged: the other direction is covered when it is
the same single level (layer) for all views. -/
theorem merged_covers_partial (cube mm ml : Bool) (v : Src) (vs : List Src) (h : ∀ x ∈ v :: vs, Explicit x.range)
    (hm : mm = true ∨ ∀ x ∈ v :: vs, x.range.levels = 1 ∧ x.range.baseMip = v.range.baseMip)
    (hl : ml = true ∨ ∀ x ∈ v :: vs, x.range.layers = 1 ∧ x.range.baseLayer = v.range.baseLayer) :
    ∀ x ∈ v :: vs, x.range.Sub (mergeViews cube mm ml v vs).range := by
  have hf := fold_spec mm ml (vs.map Src.range) v.range [v.range] (h v (by simp))
    (by intro x hx; obtain ⟨y, hy, rfl⟩ := List.mem_map.1 hx; exact h y (by simp [hy]))
    (fun _ => box_single _ _ _) (fun _ => box_single _ _ _)
  simp only at hf
  obtain ⟨f1, f2, f3, f4⟩ := hf
  -- the unmerged directions keep the one level
  have keep : ∀ (vs : List Range) (d : Range),
      ((∀ x ∈ d :: vs, x.levels = 1 ∧ x.baseMip = v.range.baseMip) → mm = false →
        (vs.foldl (step mm ml) d).levels = 1 ∧ (vs.foldl (step mm ml) d).baseMip = v.range.baseMip)
      ∧ ((∀ x ∈ d :: vs, x.layers = 1 ∧ x.baseLayer = v.range.baseLayer) → ml = false →
        (vs.foldl (step mm ml) d).layers = 1 ∧ (vs.foldl (step mm ml) d).baseLayer = v.range.baseLayer) := by
    intro vs
    induction vs with
    | nil => intro d; exact ⟨fun h _ => h d (by simp), fun h _ => h d (by simp)⟩
    | cons w ws ih =>
      intro d
      obtain ⟨i1, i2⟩ := ih (step mm ml d w)
      constructor
      · intro hx hmm
        refine i1 ?_ hmm
        intro x hx'
        rcases List.mem_cons.1 hx' with rfl | hx'
        · have g1 := hx d (by simp)
          have g2 := hx w (by simp)
          refine ⟨by simp [step, hmm], ?_⟩
          change min w.baseMip d.baseMip = _
          omega
        · exact hx x (by simp [hx'])
      · intro hx hml
        refine i2 ?_ hml
        intro x hx'
        rcases List.mem_cons.1 hx' with rfl | hx'
        · have g1 := hx d (by simp)
          have g2 := hx w (by simp)
          refine ⟨by simp [step, hml], ?_⟩
          change min w.baseLayer d.baseLayer = _
          omega
        · exact hx x (by simp [hx'])
  obtain ⟨k1, k2⟩ := keep (vs.map Src.range) v.range
  have lift : ∀ p : Range → Prop, (∀ x ∈ v :: vs, p x.range) → ∀ x ∈ v.range :: vs.map Src.range, p x := by
    intro p hp x hx
    rcases List.mem_cons.1 hx with rfl | hx
    · exact hp v (by simp)
    · obtain ⟨y, hy, rfl⟩ := List.mem_map.1 hx; exact hp y (by simp [hy])
  intro x hx l m hHas
  rw [mergeViews_range]
  have hx' : x.range ∈ [v.range] ++ vs.map Src.range := by
    rcases List.mem_cons.1 hx with rfl | hx
    · simp
    · simp only [List.mem_append, List.mem_map]; exact .inr ⟨x, hx, rfl⟩
  unfold Range.Has at *
  refine ⟨?_, ?_, ?_, ?_⟩
  · rcases hl with hl | hl
    · have := (f4 hl).sub _ hx'; omega
    · cases hb : ml with
      | true => have := (f4 hb).sub _ hx'; subst hb; omega
      | false =>
        have := k2 (lift (fun r => r.layers = 1 ∧ r.baseLayer = v.range.baseLayer) hl) hb
        have g := hl x hx
        subst hb; omega
  · rcases hl with hl | hl
    · have := (f4 hl).sub _ hx'; omega
    · cases hb : ml with
      | true => have := (f4 hb).sub _ hx'; subst hb; omega
      | false =>
        have := k2 (lift (fun r => r.layers = 1 ∧ r.baseLayer = v.range.baseLayer) hl) hb
        have g := hl x hx
        subst hb; omega
  · rcases hm with hm | hm
    · have := (f3 hm).sub _ hx'; omega
    · cases hb : mm with
      | true => have := (f3 hb).sub _ hx'; subst hb; omega
      | false =>
        have := k1 (lift (fun r => r.levels = 1 ∧ r.baseMip = v.range.baseMip) hm) hb
        have g := hm x hx
        subst hb; omega
  · rcases hm with hm | hm
    · have := (f3 hm).sub _ hx'; omega
    · cases hb : mm with
      | true => have := (f3 hb).sub _ hx'; subst hb; omega
      | false =>
        have := k1 (lift (fun r => r.levels = 1 ∧ r.baseMip = v.range.baseMip) hm) hb
        have g := hm x hx
        subst hb; omega

/-- C26, view type (partial): if the first view isn't a cube, a cube array or a 3D view, the view type of the merged
view can hold its layers. -/
theorem merged_type_holds_partial (cube mm ml : Bool) (v : Src) (vs : List Src) (h : ∀ x ∈ v :: vs, Explicit x.range)
    (hv : v.viewType = .d1 ∨ v.viewType = .d2 ∨ v.viewType = .d1Array ∨ v.viewType = .d2Array) :
    Holds (mergeViews cube mm ml v vs).viewType (mergeViews cube mm ml v vs).range.layers := by
  have hf := fold_spec mm ml (vs.map Src.range) v.range [v.range] (h v (by simp))
    (by intro x hx; obtain ⟨y, hy, rfl⟩ := List.mem_map.1 hx; exact h y (by simp [hy]))
    (fun _ => box_single _ _ _) (fun _ => box_single _ _ _)
  simp only at hf
  rw [← mergeViews_range cube mm ml] at hf
  have hpos := hf.1.2.1
  have e : (mergeViews cube mm ml v vs).viewType = promote cube v.viewType (mergeViews cube mm ml v vs).range := rfl
  rw [e]
  generalize (mergeViews cube mm ml v vs).range = r at *
  unfold promote
  split
  · rename_i hgt
    rcases hv with hv | hv | hv | hv <;> rw [hv] <;> simp only
    · exact hpos
    · split
      · rename_i hc
        simp only [Bool.and_eq_true, beq_iff_eq] at hc
        split
        · exact ⟨by omega, hc.1.2⟩
        · change r.layers = 6
          omega
      · exact hpos
    · exact hpos
    · exact hpos
  · rcases hv with hv | hv | hv | hv <;> rw [hv] <;> simp only [Holds] <;> omega

/-- C26, cube views: merging all the layers of cubes starting at multiples of 6 gives a cube or a cube array. -/
theorem merged_cubes_hold_partial (cube mm : Bool) (v : Src) (vs : List Src) (h : ∀ x ∈ v :: vs, Explicit x.range)
    (hv : v.viewType = .cube) (h6 : ∀ x ∈ v :: vs, x.range.baseLayer % 6 = 0 ∧ x.range.layers = 6) :
    Holds (mergeViews cube mm true v vs).viewType (mergeViews cube mm true v vs).range.layers
    ∧ ((mergeViews cube mm true v vs).viewType = .cube ↔ (mergeViews cube mm true v vs).range.layers = 6) := by
  have hf := fold_spec mm true (vs.map Src.range) v.range [v.range] (h v (by simp))
    (by intro x hx; obtain ⟨y, hy, rfl⟩ := List.mem_map.1 hx; exact h y (by simp [hy]))
    (fun _ => box_single _ _ _) (fun _ => box_single _ _ _)
  simp only at hf
  rw [← mergeViews_range cube mm true] at hf
  have hpos := hf.1.2.1
  obtain ⟨⟨x, hx, ex⟩, ⟨y, hy, ey⟩, hs⟩ := hf.2.2.2 trivial
  have h6' : ∀ x ∈ [v.range] ++ vs.map Src.range, x.baseLayer % 6 = 0 ∧ x.layers = 6 := by
    intro x hx
    rcases List.mem_append.1 hx with hx | hx
    · simp only [List.mem_singleton] at hx; rw [hx]; exact h6 v (by simp)
    · obtain ⟨y, hy, rfl⟩ := List.mem_map.1 hx; exact h6 y (by simp [hy])
  have e : (mergeViews cube mm true v vs).viewType = promote cube v.viewType (mergeViews cube mm true v vs).range := rfl
  rw [e]
  generalize (mergeViews cube mm true v vs).range = r at *
  have g1 := h6' x hx
  have g2 := h6' y hy
  have g3 := hs x hx
  unfold promote
  rw [hv]
  split
  · simp only
    split <;> refine ⟨by simp only [Holds]; omega, ?_⟩ <;> simp only [reduceCtorEq, false_iff, true_iff] <;> omega
  · refine ⟨by simp only [Holds]; omega, ?_⟩
    simp only [true_iff]; omega

/-- C26: 2D views become a cube (or an array of cubes) exactly when the image allows cubes (VUID-VkImageViewCreateInfo-image-01003)
and the merged layers are whole cubes from the first layer on; otherwise a 2D view, or an array if there are several layers. -/
theorem merged_2d_type (cube mm ml : Bool) (v : Src) (vs : List Src) (h : ∀ x ∈ v :: vs, Explicit x.range) (hv : v.viewType = .d2) :
    let m := mergeViews cube mm ml v vs
    ((m.viewType = .cube ∨ m.viewType = .cubeArray) ↔ cube = true ∧ m.range.baseLayer = 0 ∧ 6 ∣ m.range.layers)
    ∧ (m.viewType = .cube → m.range.layers = 6) ∧ (m.viewType = .cubeArray → 6 < m.range.layers)
    ∧ (m.viewType = .d2 ↔ m.range.layers = 1)
    ∧ (m.viewType = .d2 ∨ m.viewType = .d2Array ∨ m.viewType = .cube ∨ m.viewType = .cubeArray) := by
  have hf := fold_spec mm ml (vs.map Src.range) v.range [v.range] (h v (by simp))
    (by intro x hx; obtain ⟨y, hy, rfl⟩ := List.mem_map.1 hx; exact h y (by simp [hy]))
    (fun _ => box_single _ _ _) (fun _ => box_single _ _ _)
  simp only at hf
  rw [← mergeViews_range cube mm ml] at hf
  have hpos := hf.1.2.1
  have e : (mergeViews cube mm ml v vs).viewType = promote cube .d2 (mergeViews cube mm ml v vs).range := by rw [← hv]; rfl
  simp only [e]
  generalize (mergeViews cube mm ml v vs).range = r at *
  unfold promote
  split
  · rename_i hgt
    simp only
    split
    · rename_i hc
      simp only [Bool.and_eq_true, beq_iff_eq] at hc
      split
      · refine ⟨by simp [hc.1.1, hc.2]; omega, by simp, fun _ => by omega, by simp; omega, by simp⟩
      · refine ⟨by simp [hc.1.1, hc.2]; omega, fun _ => by omega, by simp, by simp; omega, by simp⟩
    · rename_i hc
      simp only [Bool.and_eq_true, beq_iff_eq, not_and] at hc
      refine ⟨?_, by simp, by simp, by simp; omega, by simp⟩
      simp only [reduceCtorEq, or_self, false_iff, not_and]
      intro h1 h2 h3
      exact hc ⟨h1, by omega⟩ h2
  · refine ⟨?_, by simp, by simp, by simp; omega, by simp⟩
    simp only [reduceCtorEq, or_self, false_iff, not_and]
    intro _ _ h3
    omega

/-! Non-vacuity and negations. -/

def src (vt : ViewType) (baseMip levels baseLayer layers : Nat) : Src :=
  ⟨1, vt, 37, ⟨Aspect.color, baseMip, levels, baseLayer, layers⟩⟩

example : (∀ x ∈ [src .d2 0 1 2 1, src .d2 3 1 4 1, src .d2 1 2 0 1], Explicit x.range)
    ∧ mergeViews true true true (src .d2 0 1 2 1) [src .d2 3 1 4 1, src .d2 1 2 0 1] = src .d2Array 0 4 0 5 := by decide
example : mergeViews true true true (src .d2 0 1 0 1) [src .d2 0 1 5 1] = src .cube 0 1 0 6 := by decide
example : mergeViews true true true (src .cube 0 1 6 6) [src .cube 0 1 0 6] = src .cubeArray 0 1 0 12 := by decide

/-- A range of six layers that doesn't start at the first one stays an array. -/
example : mergeViews true true true (src .d2 0 1 1 1) [src .d2 0 1 6 1] = src .d2Array 0 1 1 6 := by decide

/-- C26 is false of views of several levels whose levels are not merged: only the first level is kept, though a single
view would keep them all. -/
theorem unmerged_levels_dropped :
    ¬ (src .d2 0 4 1 1).range.Sub (mergeViews false false true (src .d2 0 4 0 1) [src .d2 0 4 1 1]).range := by
  intro h
  exact absurd (h 1 3 (by decide)) (by decide)

/-- C26 is false of `VK_REMAINING_MIP_LEVELS`: the end of the range wraps around. -/
theorem remaining_levels_lost :
    mergeViews false true true (src .d2 0 1 0 1) [src .d2 1 0xFFFFFFFF 0 1] = src .d2 0 1 0 1 := by decide

/-- C26 is false of cubes when layers are not merged: the view stays a cube but has one layer. -/
theorem unmerged_cube_invalid :
    mergeViews true true false (src .cube 0 1 0 6) [src .cube 1 1 0 6] = src .cube 0 2 0 1
    ∧ ¬ Holds .cube 1 := by decide

end Verif.Merge
