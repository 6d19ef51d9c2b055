import Verif.Spec.Colours
import Verif.Props.Labels
/-!
C106. The colours of debug blocks: valid and vivid for every block of every history; two blocks of a process have the same colour
exactly when the number of blocks between them is a multiple of 81.
-/
namespace Verif.Rainbow
open Verif.Lab

/-! ### The arithmetic is single precision -/

theorem fits_multiple {k e q : Nat} (hq : 2 ^ 23 ≤ q) (hk : Fits 24 k) : k ≤ q * 2 ^ e ∨ 2 ^ e ∣ k := by
  obtain ⟨m, a, hm, rfl⟩ := hk
  by_cases ha : e ≤ a
  · right
    exact Nat.dvd_trans (Nat.pow_dvd_pow 2 ha) (Nat.dvd_mul_left ..)
  · left
    have h1 : m * 2 ^ a ≤ 2 ^ 24 * 2 ^ a := Nat.mul_le_mul_right _ (Nat.le_of_lt hm)
    have h2 : 2 ^ 24 * 2 ^ a = 2 ^ 23 * 2 ^ (a + 1) := by rw [Nat.pow_succ 2 a]; omega
    have h3 : 2 ^ 23 * 2 ^ (a + 1) ≤ q * 2 ^ e :=
      Nat.mul_le_mul hq (Nat.pow_le_pow_right (by decide) (by omega))
    omega

theorem fits_of_le {q e : Nat} (hq : q ≤ 2 ^ 24) : Fits 24 (q * 2 ^ e) := by
  by_cases h : q < 2 ^ 24
  · exact ⟨q, e, h, rfl⟩
  · have : q = 2 ^ 24 := by omega
    subst this
    exact ⟨2 ^ 23, e + 1, by decide, by rw [Nat.pow_succ 2 e]; omega⟩

theorem fits_even {q e : Nat} (hq : q ≤ 2 ^ 24) (h2 : q % 2 = 0) : Fits 23 (q * 2 ^ e) := by
  by_cases h : q < 2 ^ 24
  · refine ⟨q / 2, e + 1, by omega, ?_⟩
    have hq2 : q = 2 * (q / 2) := by omega
    rw [Nat.pow_succ 2 e, ← Nat.mul_assoc, Nat.mul_right_comm, ← Nat.mul_comm 2 (q / 2), ← hq2]
  · have : q = 2 ^ 24 := by omega
    subst this
    exact ⟨2 ^ 22, e + 2, by decide, by rw [Nat.pow_succ 2 (e + 1), Nat.pow_succ 2 e]; omega⟩

/-- The rounding of the model is that of IEEE single precision, for every exact result. -/
theorem rounding_is_single_precision (n : Nat) : Nearest n (rnd n) := by
  unfold rnd
  by_cases hn : n < 2 ^ 24
  · rw [if_pos hn]
    refine ⟨⟨n, 0, hn, by omega⟩, fun k _ => by unfold dist; omega, fun k _ h hk => ?_⟩
    exfalso
    unfold dist at h
    omega
  · rw [if_neg hn]
    have hn0 : n ≠ 0 := by omega
    have hl : 24 ≤ n.log2 := (Nat.le_log2 hn0).2 (by omega)
    have hlo : 2 ^ n.log2 ≤ n := Nat.log2_self_le hn0
    have hhi : n < 2 ^ (n.log2 + 1) := Nat.lt_log2_self
    generalize he : n.log2 - 23 = e
    have hL : n.log2 = e + 23 := by omega
    rw [hL] at hlo hhi
    have hu : 0 < 2 ^ e := Nat.two_pow_pos e
    have hq1 : 2 ^ 23 ≤ n / 2 ^ e := by
      rw [Nat.le_div_iff_mul_le hu, ← Nat.pow_add, Nat.add_comm]; exact hlo
    have hq2 : n / 2 ^ e < 2 ^ 24 := by
      rw [Nat.div_lt_iff_lt_mul hu, ← Nat.pow_add, show 24 + e = e + 23 + 1 by omega]; exact hhi
    have hdm : 2 ^ e * (n / 2 ^ e) + n % 2 ^ e = n := Nat.div_add_mod n (2 ^ e)
    have hr : n % 2 ^ e < 2 ^ e := Nat.mod_lt n hu
    have hmul : ∀ k, Fits 24 k → k ≤ n / 2 ^ e * 2 ^ e ∨ n / 2 ^ e * 2 ^ e + 2 ^ e ≤ k := by
      intro k hk
      by_cases hle : k ≤ n / 2 ^ e * 2 ^ e
      · exact Or.inl hle
      · right
        rcases fits_multiple (e := e) hq1 hk with h | ⟨c, rfl⟩
        · exact absurd h hle
        · have hc : n / 2 ^ e < c := by
            refine Nat.lt_of_not_le fun hcc => ?_
            exact hle (by rw [Nat.mul_comm (2 ^ e) c]; exact Nat.mul_le_mul_right _ hcc)
          have := Nat.mul_le_mul_right (2 ^ e) (Nat.succ_le_of_lt hc)
          rw [Nat.succ_mul] at this
          rw [Nat.mul_comm (2 ^ e) c]
          exact this
    simp only
    generalize n / 2 ^ e = q at *
    generalize n % 2 ^ e = r at *
    generalize hU : 2 ^ e = u at *
    rw [Nat.mul_comm u q] at hdm
    by_cases hc : (decide (u < 2 * r) || (u == 2 * r && q % 2 == 1)) = true
    · rw [if_pos hc]
      simp only [Bool.or_eq_true, decide_eq_true_eq, Bool.and_eq_true, beq_iff_eq] at hc
      have hs : (q + 1) * u = q * u + u := Nat.succ_mul q u
      refine ⟨by rw [← hU]; exact fits_of_le (by omega), fun k hk => ?_, fun k hk hd hne => ?_⟩
      · rw [hs]
        rcases hmul k hk with h | h <;> unfold dist <;> omega
      · rw [hs] at hd hne
        have hodd : q % 2 = 1 := by
          rcases hc with h | h
          · exfalso
            rcases hmul k hk with h' | h' <;> unfold dist at hd <;> omega
          · exact h.2
        rw [← hU]
        exact fits_even (by omega) (by omega)
    · rw [if_neg hc]
      simp only [Bool.or_eq_true, decide_eq_true_eq, Bool.and_eq_true, beq_iff_eq, not_or, not_and] at hc
      refine ⟨by rw [← hU]; exact fits_of_le (by omega), fun k hk => ?_, fun k hk hd hne => ?_⟩
      · rcases hmul k hk with h | h <;> unfold dist <;> omega
      · have hev : q % 2 = 0 := by
          by_cases h2 : u = 2 * r
          · have := hc.2 h2
            omega
          · exfalso
            rcases hmul k hk with h' | h' <;> unfold dist at hd <;> omega
        rw [← hU]
        exact fits_even (by omega) hev

/-- No other number is: the rounding is determined. -/
theorem nearest_unique {n r s : Nat} (hr : Nearest n r) (hs : Nearest n s) (hr' : ¬Fits 23 r) : r = s := by
  refine Classical.byContradiction fun h => ?_
  exact hr' (hr.2.2 s hs.1 (Nat.le_antisymm (hs.2.1 r hr.1) (hr.2.1 s hs.1)) (Ne.symm h))

/-- `0.0125f`: of the multiples of 2^-30 (the numbers of 24 bits there) the nearest to 1/80. -/
theorem incr_is_one_eightieth (k : Nat) : dist (80 * incr) one ≤ dist (80 * k) one ∧ Fits 24 incr ∧ 2 ^ 23 ≤ incr := by
  refine ⟨?_, ⟨incr, 0, by decide, by omega⟩, by decide⟩
  unfold dist incr one
  omega

/-! ### The colours go round -/

/-- The static variable after `n` calls. -/
def hueAfter : Nat → Nat
  | 0 => 0
  | n + 1 => nextHue (hueAfter n)

/-- The colour of the debug block before which `n` were begun. -/
def rainbow (n : Nat) : Colour := colourOf (nextHue (hueAfter n))

/-- The values of the static variable in a round (computed; proved below). -/
def hues : List Nat :=
  [0, 13421773, 26843546, 40265320, 53687092, 67108864, 80530640, 93952416, 107374192, 120795968, 134217744, 147639520,
   161061296, 174483072, 187904848, 201326624, 214748400, 228170176, 241591952, 255013728, 268435488, 281857248, 295279008,
   308700768, 322122528, 335544288, 348966048, 362387808, 375809568, 389231328, 402653088, 416074848, 429496608, 442918368,
   456340128, 469761888, 483183648, 496605408, 510027168, 523448928, 536870688, 550292480, 563714240, 577136000, 590557760,
   603979520, 617401280, 630823040, 644244800, 657666560, 671088320, 684510080, 697931840, 711353600, 724775360, 738197120,
   751618880, 765040640, 778462400, 791884160, 805305920, 818727680, 832149440, 845571200, 858992960, 872414720, 885836480,
   899258240, 912680000, 926101760, 939523520, 952945280, 966367040, 979788800, 993210560, 1006632320, 1020054080,
   1033475840, 1046897600, 1060319360, 1073741120, 0]

/-- The colours of a round (computed; proved below). -/
def colours : List Colour :=
  [⟨1073741824, 80530624, 0, one⟩, ⟨1073741824, 161061248, 0, one⟩, ⟨1073741824, 241591936, 0, one⟩,
   ⟨1073741824, 322122560, 0, one⟩, ⟨1073741824, 402653184, 0, one⟩, ⟨1073741824, 483183872, 0, one⟩,
   ⟨1073741824, 563714496, 0, one⟩, ⟨1073741824, 644245120, 0, one⟩, ⟨1073741824, 724775808, 0, one⟩,
   ⟨1073741824, 805306496, 0, one⟩, ⟨1073741824, 885837120, 0, one⟩, ⟨1073741824, 966367744, 0, one⟩,
   ⟨1073741824, 1046898432, 0, one⟩, ⟨1020054528, 1073741824, 0, one⟩, ⟨939523840, 1073741824, 0, one⟩,
   ⟨858993280, 1073741824, 0, one⟩, ⟨778462592, 1073741824, 0, one⟩, ⟨697931904, 1073741824, 0, one⟩,
   ⟨617401344, 1073741824, 0, one⟩, ⟨536870656, 1073741824, 0, one⟩, ⟨456340224, 1073741824, 0, one⟩,
   ⟨375809536, 1073741824, 0, one⟩, ⟨295279104, 1073741824, 0, one⟩, ⟨214748416, 1073741824, 0, one⟩,
   ⟨134217984, 1073741824, 0, one⟩, ⟨53687296, 1073741824, 0, one⟩, ⟨0, 1073741824, 26843136, one⟩,
   ⟨0, 1073741824, 107373824, one⟩, ⟨0, 1073741824, 187904256, one⟩, ⟨0, 1073741824, 268434944, one⟩,
   ⟨0, 1073741824, 348965376, one⟩, ⟨0, 1073741824, 429496064, one⟩, ⟨0, 1073741824, 510026496, one⟩,
   ⟨0, 1073741824, 590557184, one⟩, ⟨0, 1073741824, 671087616, one⟩, ⟨0, 1073741824, 751618304, one⟩,
   ⟨0, 1073741824, 832148736, one⟩, ⟨0, 1073741824, 912679424, one⟩, ⟨0, 1073741824, 993209856, one⟩,
   ⟨0, 1073741824, 1073740544, one⟩, ⟨0, 993212416, 1073741824, one⟩, ⟨0, 912681984, 1073741824, one⟩,
   ⟨0, 832151296, 1073741824, one⟩, ⟨0, 751620608, 1073741824, one⟩, ⟨0, 671090176, 1073741824, one⟩,
   ⟨0, 590559744, 1073741824, one⟩, ⟨0, 510029056, 1073741824, one⟩, ⟨0, 429498368, 1073741824, one⟩,
   ⟨0, 348967936, 1073741824, one⟩, ⟨0, 268437504, 1073741824, one⟩, ⟨0, 187906816, 1073741824, one⟩,
   ⟨0, 107376128, 1073741824, one⟩, ⟨0, 26845696, 1073741824, one⟩, ⟨53684736, 0, 1073741824, one⟩,
   ⟨134215680, 0, 1073741824, one⟩, ⟨214746112, 0, 1073741824, one⟩, ⟨295276544, 0, 1073741824, one⟩,
   ⟨375806976, 0, 1073741824, one⟩, ⟨456337408, 0, 1073741824, one⟩, ⟨536868352, 0, 1073741824, one⟩,
   ⟨617398784, 0, 1073741824, one⟩, ⟨697929216, 0, 1073741824, one⟩, ⟨778460160, 0, 1073741824, one⟩,
   ⟨858990592, 0, 1073741824, one⟩, ⟨939521024, 0, 1073741824, one⟩, ⟨1020051456, 0, 1073741824, one⟩,
   ⟨1073741824, 0, 1046901760, one⟩, ⟨1073741824, 0, 966370816, one⟩, ⟨1073741824, 0, 885840384, one⟩,
   ⟨1073741824, 0, 805309952, one⟩, ⟨1073741824, 0, 724779008, one⟩, ⟨1073741824, 0, 644248576, one⟩,
   ⟨1073741824, 0, 563718144, one⟩, ⟨1073741824, 0, 483187712, one⟩, ⟨1073741824, 0, 402657280, one⟩,
   ⟨1073741824, 0, 322126336, one⟩, ⟨1073741824, 0, 241595904, one⟩, ⟨1073741824, 0, 161065472, one⟩,
   ⟨1073741824, 0, 80534528, one⟩, ⟨1073741824, 0, 4096, one⟩, ⟨1073741824, 0, 0, one⟩]

theorem hues_step : ∀ i ∈ List.range 81, nextHue (hues.getD i 0) = hues.getD (i + 1) 0 := by decide +kernel

theorem colours_step : ∀ i ∈ List.range 81, colourOf (hues.getD (i + 1) 0) = colours.getD i ⟨0, 0, 0, 0⟩ := by decide +kernel

theorem hueAfter_table (n : Nat) (h : n ≤ 81) : hueAfter n = hues.getD n 0 := by
  induction n with
  | zero => rfl
  | succ n ih =>
    show nextHue (hueAfter n) = _
    rw [ih (by omega)]
    exact hues_step n (List.mem_range.2 h)

theorem rainbow_table (n : Nat) (h : n < 81) : rainbow n = colours.getD n ⟨0, 0, 0, 0⟩ := by
  have e : rainbow n = colourOf (hueAfter (n + 1)) := rfl
  rw [e, hueAfter_table (n + 1) h]
  exact colours_step n (List.mem_range.2 h)

theorem hueAfter_81 : hueAfter 81 = 0 := by
  rw [hueAfter_table 81 (Nat.le_refl _)]
  decide +kernel

theorem hueAfter_add (n : Nat) : hueAfter (n + 81) = hueAfter n := by
  induction n with
  | zero => exact hueAfter_81
  | succ n ih => rw [Nat.succ_add]; exact congrArg nextHue ih

theorem hueAfter_mod (n : Nat) : hueAfter n = hueAfter (n % 81) := by
  induction n using Nat.strongRecOn with
  | _ n ih =>
    by_cases h : n < 81
    · rw [Nat.mod_eq_of_lt h]
    · have e : n = (n - 81) + 81 := by omega
      rw [e, hueAfter_add, ih (n - 81) (by omega), Nat.add_mod_right]

theorem rainbow_mod (n : Nat) : rainbow n = rainbow (n % 81) := by
  unfold rainbow
  rw [hueAfter_mod]

theorem colours_nodup : colours.Nodup := by decide +kernel

theorem colours_length : colours.length = 81 := by decide

theorem colours_get {i : Nat} (h : i < 81) : colours.getD i ⟨0, 0, 0, 0⟩ = colours[i]'(by rw [colours_length]; exact h) :=
  List.getElem_eq_getD _ |>.symm

theorem colours_all_vivid : ∀ c ∈ colours,
    c.r ≤ 2 ^ 30 ∧ c.g ≤ 2 ^ 30 ∧ c.b ≤ 2 ^ 30 ∧ c.a = 2 ^ 30 ∧ (c.r = 2 ^ 30 ∨ c.g = 2 ^ 30 ∨ c.b = 2 ^ 30) ∧
    (c.r = 0 ∨ c.g = 0 ∨ c.b = 0) := by decide +kernel

/-- Every colour is opaque, bright and saturated, whatever was asked for before. -/
theorem colours_vivid (n : Nat) : (rainbow n).Vivid := by
  have h : n % 81 < 81 := Nat.mod_lt n (by decide)
  rw [rainbow_mod, rainbow_table _ h, colours_get h]
  exact colours_all_vivid _ (List.getElem_mem _)

/-- Two colours are the same exactly when the number of colours given in between is a multiple of 81. -/
theorem colour_same_iff (m n : Nat) : rainbow m = rainbow n ↔ m % 81 = n % 81 := by
  constructor
  · intro h
    have hm : m % 81 < 81 := Nat.mod_lt m (by decide)
    have hn : n % 81 < 81 := Nat.mod_lt n (by decide)
    rw [rainbow_mod m, rainbow_mod n, rainbow_table _ hm, rainbow_table _ hn, colours_get hm, colours_get hn] at h
    have hp := List.pairwise_iff_getElem.1 colours_nodup
    rcases Nat.lt_trichotomy (m % 81) (n % 81) with hl | hl | hl
    · exact absurd h (hp _ _ (by rw [colours_length]; exact hm) (by rw [colours_length]; exact hn) hl)
    · exact hl
    · exact absurd h.symm (hp _ _ (by rw [colours_length]; exact hn) (by rw [colours_length]; exact hm) hl)
  · intro h
    rw [rainbow_mod m, rainbow_mod n, h]

/-- A colour and the next one differ by at least 1/21 in a component, except the last but one and the last of a round. -/
theorem neighbours_apart (n : Nat) (h : n % 81 ≠ 79) : (rainbow n).Apart (2 ^ 30 / 21) (rainbow (n + 1)) := by
  have key : ∀ n ∈ List.range 81, n ≠ 79 →
      2 ^ 30 / 21 ≤ dist (colours.getD n ⟨0, 0, 0, 0⟩).r (colours.getD ((n + 1) % 81) ⟨0, 0, 0, 0⟩).r ∨
      2 ^ 30 / 21 ≤ dist (colours.getD n ⟨0, 0, 0, 0⟩).g (colours.getD ((n + 1) % 81) ⟨0, 0, 0, 0⟩).g ∨
      2 ^ 30 / 21 ≤ dist (colours.getD n ⟨0, 0, 0, 0⟩).b (colours.getD ((n + 1) % 81) ⟨0, 0, 0, 0⟩).b := by decide +kernel
  have hn : n % 81 < 81 := Nat.mod_lt n (by decide)
  have hs : (n % 81 + 1) % 81 < 81 := Nat.mod_lt _ (by decide)
  have e : rainbow (n + 1) = rainbow ((n % 81 + 1) % 81) := (colour_same_iff _ _).2 (by omega)
  rw [rainbow_mod n, e, rainbow_table _ hn, rainbow_table _ hs]
  exact key _ (List.mem_range.2 hn) h

/-- Those two are both red: they differ by less than 0.000004, in the blue component. -/
theorem end_of_round_alike (n : Nat) (h : n % 81 = 79) :
    rainbow n = ⟨one, 0, 4096, one⟩ ∧ rainbow (n + 1) = ⟨one, 0, 0, one⟩ := by
  have e : rainbow (n + 1) = rainbow 80 := (colour_same_iff _ _).2 (by omega)
  rw [rainbow_mod n, e, h, rainbow_table 79 (by decide), rainbow_table 80 (by decide)]
  decide +kernel

/-! ### The blocks of a process -/

theorem paint_label (hue p : Nat) (r : List Mark) : paint hue (.label p :: r) =
    ((p, colourOf (nextHue hue)) :: (paint (nextHue hue) r).1, (paint (nextHue hue) r).2) := rfl

theorem paint_endLabel (hue : Nat) (r : List Mark) : paint hue (.endLabel :: r) = paint hue r := rfl

theorem paint_stamp (hue : Nat) (a : Timer.Act) (r : List Mark) : paint hue (.stamp a :: r) = paint hue r := rfl

theorem paint_cmd (hue : Nat) (c : Rec.Cmd) (r : List Mark) : paint hue (.cmd c :: r) = paint hue r := rfl

theorem paintAll_cons (hue : Nat) (m : List Mark) (r : List (List Mark)) :
    paintAll hue (m :: r) = (paint hue m).1 :: paintAll (paint hue m).2 r := rfl

theorem hueAfter_zero : hueAfter 0 = 0 := rfl

theorem hueAfter_succ (n : Nat) : nextHue (hueAfter n) = hueAfter (n + 1) := rfl

theorem colourOf_hueAfter (n : Nat) : colourOf (hueAfter (n + 1)) = rainbow n := rfl

attribute [local irreducible] nextHue colourOf hueAfter rainbow

theorem paint_spec (marks : List Mark) (n : Nat) :
    (paint (hueAfter n) marks).1 = ((labelled marks).zipIdx n).map (fun x => (x.1, rainbow x.2)) ∧
    (paint (hueAfter n) marks).2 = hueAfter (n + (labelled marks).length) := by
  induction marks generalizing n with
  | nil => exact ⟨rfl, rfl⟩
  | cons m r ih =>
    cases m with
    | label p =>
      have h := ih (n + 1)
      have e : labelled (.label p :: r) = p :: labelled r := rfl
      rw [e, List.zipIdx_cons, List.map_cons, List.length_cons]
      rw [paint_label, hueAfter_succ, colourOf_hueAfter, h.1, h.2, Nat.add_assoc, Nat.add_comm 1]
      exact ⟨rfl, rfl⟩
    | endLabel => rw [paint_endLabel]; exact ih n
    | stamp a => rw [paint_stamp]; exact ih n
    | cmd c => rw [paint_cmd]; exact ih n

/-- Every debug block of a process has a colour of the round: the block before which `n` were begun, in whatever recordings of
whatever graphs, has the `n`-th. -/
theorem blocks_coloured (recordings : List (List Mark)) (n : Nat) :
    (paintAll (hueAfter n) recordings).flatten =
      ((recordings.flatMap labelled).zipIdx n).map (fun x => (x.1, rainbow x.2)) := by
  induction recordings generalizing n with
  | nil => rfl
  | cons m r ih =>
    have h := paint_spec m n
    rw [paintAll_cons, List.flatten_cons, h.1, h.2, ih, List.flatMap_cons, List.zipIdx_append, List.map_append, Nat.add_comm]

/-- Each recording has its own blocks, one colour each. -/
theorem blocks_of_each_recording (recordings : List (List Mark)) (n : Nat) :
    (paintAll (hueAfter n) recordings).map (List.map (·.1)) = recordings.map labelled := by
  induction recordings generalizing n with
  | nil => rfl
  | cons m r ih =>
    have h := paint_spec m n
    rw [paintAll_cons, List.map_cons, h.1, h.2, ih, List.map_map, List.map_cons]
    congr 1
    exact List.zipIdx_map_fst n (labelled m)

/-- The colours of the blocks of any process are vivid. -/
theorem process_colours_vivid (recordings : List (List Mark)) (x : Nat × Colour)
    (hx : x ∈ (paintAll 0 recordings).flatten) : x.2.Vivid := by
  have e := blocks_coloured recordings 0
  rw [hueAfter_zero] at e
  rw [e] at hx
  obtain ⟨y, _, rfl⟩ := List.mem_map.1 hx
  exact colours_vivid y.2

/-- Recordings of at most 81 passes have no two blocks of one colour, wherever in the process they are made. -/
theorem frame_colours_distinct (marks : List Mark) (n : Nat) (h : (labelled marks).length ≤ 81) :
    ((paint (hueAfter n) marks).1.map (·.2)).Nodup := by
  rw [(paint_spec marks n).1, List.map_map]
  have e : ∀ l : List (Nat × Nat), l.map ((fun x : Nat × Colour => x.2) ∘ fun x : Nat × Nat => (x.1, rainbow x.2)) =
      (l.map (·.2)).map rainbow := fun l => by rw [List.map_map]; rfl
  rw [e, List.zipIdx_map_snd]
  refine List.pairwise_iff_getElem.2 fun i j hi hj hij => ?_
  rw [List.length_map, List.length_range'] at hi hj
  rw [List.getElem_map, List.getElem_map, List.getElem_range', List.getElem_range']
  intro e
  have h2 := (colour_same_iff _ _).1 e
  omega

/-- A pass doesn't keep its colour: recorded twice in a row, a frame of `k` enabled passes has the same colours exactly when `k` is
a multiple of 81. -/
theorem recorded_again_recoloured (marks : List Mark) (n : Nat) (h : labelled marks ≠ []) :
    (paint (hueAfter n) marks).1 = (paint (paint (hueAfter n) marks).2 marks).1 ↔ (labelled marks).length % 81 = 0 := by
  rw [(paint_spec marks n).2, (paint_spec marks n).1, (paint_spec marks _).1]
  cases hl : labelled marks with
  | nil => exact absurd hl h
  | cons p r =>
    constructor
    · intro e
      rw [List.zipIdx_cons, List.zipIdx_cons, List.map_cons, List.map_cons] at e
      have := (colour_same_iff _ _).1 (Prod.mk.inj (List.cons.inj e).1).2
      omega
    · intro e
      refine List.ext_getElem (by simp) fun i h1 h2 => ?_
      simp only [List.getElem_map, List.getElem_zipIdx]
      exact congrArg (Prod.mk _) ((colour_same_iff _ _).2 (by omega))

open Verif.Rec Verif.Run Verif.Timer Verif.Brk

theorem labelled_block (p q : Nat) (cs : List Cmd) : labelled (block p q cs) = [p] := by
  have h : labelled (cs.map .cmd) = [] := by
    induction cs with
    | nil => rfl
    | cons c cs ih => exact ih
  unfold labelled at h ⊢
  unfold block
  rw [List.filterMap_append, List.filterMap_append, h]
  rfl

/-- The blocks of a graph's command buffer: one for each enabled pass, in the order of the passes, with the colours that come next
in the process. -/
theorem recorded_graph_colours {env : Env} {G : GraphSt} {deps : List Ctx} {index : Nat → Nat}
    {passes : List RunPass} {ini : Nat → Nat → Bool} {log : List Run.Event} {graph : Timer} {timers : Nat → Timer}
    {draws : RunPass → Option (List Nat)} (hb : ∀ p ∈ passes, Body env.sepDS G p (draws p)) (hn : (passes.map (·.id)).Nodup)
    {R : Recorded} (h : record env G deps index passes ini log graph timers = some R) (n : Nat) :
    (paint (hueAfter n) R.full.marks).1 =
      (((passes.filter fun p => env.enabled p.id).map (·.id)).zipIdx n).map (fun x => (x.1, rainbow x.2)) := by
  obtain ⟨-, -, parts, -, -, hm, -⟩ := (command_buffer_anatomy hb hn).2 R h
  have e : ∀ l : List RunPass,
      labelled (l.flatMap fun p => block p.id (timers p.id).back.offset (parts p.id)) = l.map (·.id) := by
    intro l
    induction l with
    | nil => rfl
    | cons p l ih =>
      rw [List.flatMap_cons, List.map_cons, ← ih]
      unfold labelled
      rw [List.filterMap_append]
      exact congrArg (· ++ _) (labelled_block _ _ _)
  rw [(paint_spec _ n).1, hm]
  have e2 : labelled ([.stamp (.reset graph.back.offset), .stamp (.write graph.back.offset)] ++
      ((passes.filter fun p => env.enabled p.id).flatMap fun p => block p.id (timers p.id).back.offset (parts p.id)) ++
      [.stamp (.write (graph.back.offset + 1))]) = (passes.filter fun p => env.enabled p.id).map (·.id) := by
    rw [← e]
    unfold labelled
    rw [List.filterMap_append, List.filterMap_append]
    simp
  rw [e2]

/-! ### Examples -/

/-- The first colours of a process: orange-red tones, from red to yellow. -/
example : rainbow 0 = ⟨2 ^ 30, 80530624, 0, 2 ^ 30⟩ := by decide +kernel

/-- The last of the first round is red. -/
example : rainbow 80 = ⟨2 ^ 30, 0, 0, 2 ^ 30⟩ := (end_of_round_alike 79 rfl).2

/-- Two recordings of two passes. -/
example : paintAll 0 [[.label 1, .endLabel, .label 2, .endLabel], [.label 1, .endLabel, .label 2, .endLabel]] =
    [[(1, rainbow 0), (2, rainbow 1)], [(1, rainbow 2), (2, rainbow 3)]] := by decide +kernel

/-- The blocks of a recorded graph of three passes, when 79 blocks were begun before. -/
example : ∃ R, record ⟨false, fun _ => true⟩ Run.xG [] (fun _ => 0) (RPass.aPasses Run.xG none) (fun _ _ => false) []
      (exec ⟨{ offset := 0 }, { offset := 2 }⟩ [.beginPass, .endPass, .notify]).1
      (fun i => (exec ⟨{ offset := 4 * i }, { offset := 4 * i + 2 }⟩ [.beginPass, .endPass, .notify]).1) = some R ∧
    (paint (hueAfter 79) R.full.marks).1 =
      (((RPass.aPasses Run.xG none).map (·.id)).zipIdx 79).map (fun x => (x.1, rainbow x.2)) ∧
    (RPass.aPasses Run.xG none).length = 3 := by
  have hs := command_buffer_anatomy (env := ⟨false, fun _ => true⟩) (G := Run.xG) (deps := []) (index := fun _ => 0)
    (ini := fun _ _ => false) (log := []) (draws := exampleDraws)
    (graph := (exec ⟨{ offset := 0 }, { offset := 2 }⟩ [.beginPass, .endPass, .notify]).1)
    (timers := fun i => (exec ⟨{ offset := 4 * i }, { offset := 4 * i + 2 }⟩ [.beginPass, .endPass, .notify]).1)
    example_bodies (by decide)
  have hx : (Run.record ⟨false, fun _ => true⟩ Run.xG [] (fun _ => 0) (RPass.aPasses Run.xG none) (fun _ _ => false) []).isSome =
      true := by decide +kernel
  obtain ⟨R, e⟩ := hs.1.2 (Option.isSome_iff_exists.1 hx)
  refine ⟨R, e, ?_, by decide⟩
  have h := recorded_graph_colours (draws := exampleDraws) example_bodies (by decide) e 79
  rw [h]
  rfl

/-- Rounded: 2^24 + 1 is between two numbers of 24 bits, and the even one is taken. -/
example : rnd (2 ^ 24 + 1) = 2 ^ 24 ∧ rnd (2 ^ 24 + 3) = 2 ^ 24 + 4 ∧ rnd (2 ^ 25 + 3) = 2 ^ 25 + 4 := by decide +kernel

end Verif.Rainbow
