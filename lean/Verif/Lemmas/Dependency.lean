import Verif.Spec.Dependency
import Verif.Lemmas.Layout
/-
Lemmas on `dependsOn`: termination, soundness of positive answers, exactness without cycles.
-/
namespace Verif.Deps
open Verif.Att

theorem Cache.set_same (c : Cache) (a k : Nat) (b : Bool) : c.set a k b a k = some b := by
  simp [Cache.set]
theorem Cache.set_other (c : Cache) (a k : Nat) (b : Bool) (x y : Nat) (h : ¬ (x = a ∧ y = k)) :
    c.set a k b x y = c x y := by
  simp [Cache.set, h]

/-- One step towards the writer. -/
theorem via_iff (H : Heap) (w r : DPass → Prop) (t a : Nat) : Via H w r t a ↔ ∃ d ∈ (H.pass a).deps,
    (w (H.pass d) ∧ (H.pass d).id = t) ∨ (¬ w (H.pass d) ∧ ¬ r (H.pass d) ∧ Via H w r t d) := by
  constructor
  · intro h
    cases h with
    | last h1 h2 h3 => exact ⟨_, h1, .inl ⟨h2, h3⟩⟩
    | step h1 h2 h3 h4 => exact ⟨_, h1, .inr ⟨h2, h3, h4⟩⟩
  · rintro ⟨d, hd, ⟨h1, h2⟩ | ⟨h1, h2, h3⟩⟩
    · exact .last hd h1 h2
    · exact .step hd h1 h2 h3

/-! ### Termination -/

/-- Passes without an entry for the key. -/
def missing (H : Heap) (k : Nat) (c : Cache) : Nat := H.univ.countP fun x => (c x k).isNone

/-- Entries are never removed. -/
def Grows (c c' : Cache) : Prop := ∀ x k, (c x k).isSome → (c' x k).isSome

theorem Grows.refl (c : Cache) : Grows c c := fun _ _ h => h
theorem Grows.trans {a b c : Cache} (h : Grows a b) (h' : Grows b c) : Grows a c := fun x k hx => h' x k (h x k hx)
theorem grows_set (c : Cache) (a k : Nat) (b : Bool) : Grows c (c.set a k b) := by
  intro x y h
  unfold Cache.set
  split
  · rfl
  · exact h

theorem missing_mono (H : Heap) (k : Nat) {c c' : Cache} (h : Grows c c') : missing H k c' ≤ missing H k c := by
  unfold missing
  apply List.countP_mono_left
  intro x _ hx
  cases hc : c x k with
  | none => rfl
  | some b =>
    have := h x k (by rw [hc]; rfl)
    rw [Option.isNone_iff_eq_none] at hx
    rw [hx] at this
    simp at this

theorem missing_set (H : Heap) (k a : Nat) (b : Bool) (c : Cache) (ha : a ∈ H.univ) (hn : c a k = none) :
    missing H k (c.set a k b) < missing H k c := by
  unfold missing
  revert ha
  induction H.univ with
  | nil => simp
  | cons x xs ih =>
    intro ha
    have hmono : xs.countP (fun x => (c.set a k b x k).isNone) ≤ xs.countP (fun x => (c x k).isNone) := by
      apply List.countP_mono_left
      intro y _ hy
      unfold Cache.set at hy
      split at hy
      · simp at hy
      · exact hy
    rw [List.countP_cons, List.countP_cons]
    by_cases hx : x = a
    · subst hx
      rw [Cache.set_same, hn]
      simp
      omega
    · have := ih (by simpa [Ne.symm hx] using ha)
      rw [Cache.set_other _ _ _ _ _ _ (fun h => hx h.1)]
      omega

theorem findDep_some (H : Heap) (o i : DPass → Bool) (t k : Nat) (rec : Nat → Cache → Option (Bool × Cache)) (m : Nat)
    (hrec : ∀ a c, a ∈ H.univ → missing H k c ≤ m → ∃ b c', rec a c = some (b, c') ∧ Grows c c') :
    ∀ (ls : List Nat) (c : Cache), (∀ x ∈ ls, x ∈ H.univ) → missing H k c ≤ m →
    ∃ b c', findDep H o i t rec ls c = some (b, c') ∧ Grows c c' := by
  intro ls
  induction ls with
  | nil => intro c _ _; exact ⟨false, c, rfl, Grows.refl c⟩
  | cons l ls ih =>
    intro c hu hm
    have ih := fun c h => ih c (fun x hx => hu x (by simp [hx])) h
    unfold findDep
    split
    · split
      · exact ⟨true, c, rfl, Grows.refl c⟩
      · exact ih c hm
    · split
      · obtain ⟨b, c', h1, h2⟩ := hrec l c (hu l (by simp)) hm
        rw [h1]
        cases b with
        | true => exact ⟨true, c', rfl, h2⟩
        | false =>
          obtain ⟨b, c'', h3, h4⟩ := ih c' (Nat.le_trans (missing_mono H k h2) hm)
          exact ⟨b, c'', h3, h2.trans h4⟩
      · exact ih c hm

theorem dependsOnN_some (H : Heap) (hcl : Closed H) (o i : DPass → Bool) (t k : Nat) : ∀ (n a : Nat) (c : Cache),
    a ∈ H.univ → missing H k c < n →
    ∃ b c', dependsOnN H o i t k n a c = some (b, c') ∧ Grows c c' := by
  intro n
  induction n with
  | zero => intro a c _ h; omega
  | succ n ih =>
    intro a c ha hm
    unfold dependsOnN
    cases hc : c a k with
    | some b => exact ⟨b, c, rfl, Grows.refl c⟩
    | none =>
      have hlt := missing_set H k a false c ha hc
      obtain ⟨b, c', h1, h2⟩ := findDep_some H o i t k (dependsOnN H o i t k n) (n - 1)
        (fun a c ha hm => ih a c ha (by omega)) (H.pass a).deps (c.set a k false) (hcl a ha) (by omega)
      simp only [h1]
      exact ⟨b, _, rfl, (grows_set c a k false).trans (h2.trans (grows_set c' a k b))⟩

/-- `dependsOn` is the result of the recursion, whatever the dependencies. -/
theorem dependsOn_eq (H : Heap) (hcl : Closed H) (o i : DPass → Bool) (t k a : Nat) (c : Cache) (ha : a ∈ H.univ) :
    dependsOnN H o i t k (H.univ.length + 1) a c = some (dependsOn H o i t k a c) := by
  obtain ⟨b, c', h, -⟩ := dependsOnN_some H hcl o i t k (H.univ.length + 1) a c ha
    (Nat.lt_succ_of_le List.countP_le_length)
  unfold dependsOn
  rw [h]
  rfl

/-! ### Soundness of positive answers, with or without cycles -/

/-- The dependency that the code follows. -/
abbrev CVia (H : Heap) (o i : DPass → Bool) (t a : Nat) : Prop := Via H (fun p => o p = true) (fun p => i p = true) t a

/-- Other keys are untouched. -/
def OnlyKey (k : Nat) (c c' : Cache) : Prop := ∀ x y, y ≠ k → c' x y = c x y

theorem OnlyKey.refl (k : Nat) (c : Cache) : OnlyKey k c c := fun _ _ _ => rfl
theorem OnlyKey.trans {k : Nat} {a b c : Cache} (h : OnlyKey k a b) (h' : OnlyKey k b c) : OnlyKey k a c :=
  fun x y hy => (h' x y hy).trans (h x y hy)
theorem onlyKey_set (c : Cache) (a k : Nat) (b : Bool) : OnlyKey k c (c.set a k b) :=
  fun _ _ hy => Cache.set_other _ _ _ _ _ _ fun h => hy h.2

/-- A property of passes that a positive answer implies: it holds of a pass that depends directly on the target which
outputs the data, and is handed on along dependencies on passes that don't touch the data. -/
structure Follows (H : Heap) (o i : DPass → Bool) (t : Nat) (G : Nat → Prop) : Prop where
  last : ∀ a d, d ∈ (H.pass a).deps → o (H.pass d) = true → (H.pass d).id = t → G a
  step : ∀ a d, d ∈ (H.pass a).deps → ¬ o (H.pass d) = true → ¬ i (H.pass d) = true → G d → G a

theorem follows_via (H : Heap) (o i : DPass → Bool) (t : Nat) : Follows H o i t (CVia H o i t) :=
  ⟨fun _ _ h1 h2 h3 => .last h1 h2 h3, fun _ _ h1 h2 h3 h4 => .step h1 h2 h3 h4⟩

/-- Positive entries for the key imply `G`. -/
def SoundAt (G : Nat → Prop) (k : Nat) (c : Cache) : Prop := ∀ x, c x k = some true → G x

theorem findDep_sound (H : Heap) (o i : DPass → Bool) (t k : Nat) (G : Nat → Prop)
    (rec : Nat → Cache → Option (Bool × Cache))
    (hrec : ∀ a c b c', rec a c = some (b, c') → SoundAt G k c → SoundAt G k c' ∧ (b = true → G a)) :
    ∀ (ls : List Nat) (c : Cache) (b : Bool) (c' : Cache), findDep H o i t rec ls c = some (b, c') →
    SoundAt G k c → SoundAt G k c'
      ∧ (b = true → ∃ d ∈ ls, (o (H.pass d) = true ∧ (H.pass d).id = t)
          ∨ (¬ o (H.pass d) = true ∧ ¬ i (H.pass d) = true ∧ G d)) := by
  intro ls
  induction ls with
  | nil =>
    intro c b c' h hs
    simp only [findDep, Option.some.injEq, Prod.mk.injEq] at h
    obtain ⟨rfl, rfl⟩ := h
    exact ⟨hs, by simp⟩
  | cons l ls ih =>
    intro c b c' h hs
    have weaken : (b = true → ∃ d ∈ ls, (o (H.pass d) = true ∧ (H.pass d).id = t)
          ∨ (¬ o (H.pass d) = true ∧ ¬ i (H.pass d) = true ∧ G d)) →
        (b = true → ∃ d ∈ l :: ls, (o (H.pass d) = true ∧ (H.pass d).id = t)
          ∨ (¬ o (H.pass d) = true ∧ ¬ i (H.pass d) = true ∧ G d)) := by
      intro h hb
      obtain ⟨d, hd, hx⟩ := h hb
      exact ⟨d, by simp [hd], hx⟩
    unfold findDep at h
    split at h
    · rename_i ho
      split at h
      · rename_i ht
        simp only [Option.some.injEq, Prod.mk.injEq] at h
        obtain ⟨rfl, rfl⟩ := h
        exact ⟨hs, fun _ => ⟨l, by simp, .inl ⟨ho, ht.symm⟩⟩⟩
      · obtain ⟨h1, h3⟩ := ih c b c' h hs
        exact ⟨h1, weaken h3⟩
    · rename_i ho
      split at h
      · rename_i hi
        split at h
        · simp at h
        · rename_i c1 e
          simp only [Option.some.injEq, Prod.mk.injEq] at h
          obtain ⟨rfl, rfl⟩ := h
          obtain ⟨h1, h3⟩ := hrec _ _ _ _ e hs
          exact ⟨h1, fun _ => ⟨l, by simp, .inr ⟨ho, by simpa using hi, h3 rfl⟩⟩⟩
        · rename_i c1 e
          obtain ⟨h1, h3⟩ := hrec _ _ _ _ e hs
          obtain ⟨h4, h6⟩ := ih c1 b c' h h1
          exact ⟨h4, weaken h6⟩
      · obtain ⟨h1, h3⟩ := ih c b c' h hs
        exact ⟨h1, weaken h3⟩

theorem dependsOnN_sound (H : Heap) (o i : DPass → Bool) (t k : Nat) (G : Nat → Prop) (hG : Follows H o i t G) :
    ∀ (n a : Nat) (c : Cache) (b : Bool) (c' : Cache), dependsOnN H o i t k n a c = some (b, c') → SoundAt G k c →
    SoundAt G k c' ∧ (b = true → G a) := by
  intro n
  induction n with
  | zero => intro a c b c' h; simp [dependsOnN] at h
  | succ n ih =>
    intro a c b c' h hs
    unfold dependsOnN at h
    split at h
    · rename_i b0 hc
      simp only [Option.some.injEq, Prod.mk.injEq] at h
      obtain ⟨rfl, rfl⟩ := h
      exact ⟨hs, fun hb => hs a (by rw [hc, hb])⟩
    · split at h
      · simp at h
      · rename_i b1 c1 e
        simp only [Option.some.injEq, Prod.mk.injEq] at h
        obtain ⟨rfl, rfl⟩ := h
        have hs0 : SoundAt G k (c.set a k false) := by
          intro x hx
          unfold Cache.set at hx
          split at hx
          · simp at hx
          · exact hs x hx
        obtain ⟨h1, h3⟩ := findDep_sound H o i t k G _ ih _ _ _ _ e hs0
        have hv : b1 = true → G a := fun hb => by
          obtain ⟨d, hd, ⟨g1, g2⟩ | ⟨g1, g2, g3⟩⟩ := h3 hb
          · exact hG.last a d hd g1 g2
          · exact hG.step a d hd g1 g2 g3
        refine ⟨?_, hv⟩
        intro x hx
        unfold Cache.set at hx
        split at hx
        · rename_i hxa
          rw [hxa.1]
          exact hv (by simpa using hx)
        · exact h1 x hx

theorem dependsOn_sound (H : Heap) (hcl : Closed H) (o i : DPass → Bool) (t k a : Nat) (G : Nat → Prop)
    (hG : Follows H o i t G) (c : Cache) (ha : a ∈ H.univ) (hs : SoundAt G k c) :
    SoundAt G k (dependsOn H o i t k a c).2 ∧ ((dependsOn H o i t k a c).1 = true → G a) :=
  dependsOnN_sound H o i t k G hG _ _ _ _ _ (dependsOn_eq H hcl o i t k a c ha) hs

/-! ### Exactness without cycles -/

/-- Entries for the key of passes ranked below `r` are right. -/
def ExactBelow (H : Heap) (o i : DPass → Bool) (t k : Nat) (rank : Nat → Nat) (r : Nat) (c : Cache) : Prop :=
  ∀ x b, rank x < r → c x k = some b → (b = true ↔ CVia H o i t x)

/-- What is added for the key is right, what was there stays. -/
def AddsExact (H : Heap) (o i : DPass → Bool) (t k : Nat) (c c' : Cache) : Prop :=
  ∀ x b, c' x k = some b → c x k = some b ∨ (c x k = none ∧ (b = true ↔ CVia H o i t x))

theorem AddsExact.refl (H : Heap) (o i : DPass → Bool) (t k : Nat) (c : Cache) : AddsExact H o i t k c c :=
  fun _ _ h => .inl h
theorem AddsExact.trans {H : Heap} {o i : DPass → Bool} {t k : Nat} {a b c : Cache} (h : AddsExact H o i t k a b)
    (h' : AddsExact H o i t k b c) (hg : Grows a b) : AddsExact H o i t k a c := by
  intro x v hx
  rcases h' x v hx with h1 | ⟨h1, h2⟩
  · exact h x v h1
  · refine .inr ⟨?_, h2⟩
    cases ha : a x k with
    | none => rfl
    | some y =>
      have := hg x k (by rw [ha]; rfl)
      rw [h1] at this
      simp at this

theorem AddsExact.below {H : Heap} {o i : DPass → Bool} {t k : Nat} {rank : Nat → Nat} {r : Nat} {c c' : Cache}
    (h : AddsExact H o i t k c c') (hb : ExactBelow H o i t k rank r c) : ExactBelow H o i t k rank r c' := by
  intro x b hx e
  rcases h x b e with h1 | ⟨-, h1⟩
  · exact hb x b hx h1
  · exact h1

theorem findDep_exact (H : Heap) (o i : DPass → Bool) (t k : Nat) (rank : Nat → Nat) (r : Nat)
    (rec : Nat → Cache → Option (Bool × Cache))
    (hrec : ∀ a c b c', rec a c = some (b, c') → rank a < r → ExactBelow H o i t k rank r c →
      AddsExact H o i t k c c' ∧ Grows c c' ∧ (b = true ↔ CVia H o i t a)) :
    ∀ (ls : List Nat) (c : Cache) (b : Bool) (c' : Cache), findDep H o i t rec ls c = some (b, c') →
    (∀ x ∈ ls, rank x < r) → ExactBelow H o i t k rank r c → AddsExact H o i t k c c' ∧ Grows c c'
      ∧ (b = true ↔ ∃ d ∈ ls, (o (H.pass d) = true ∧ (H.pass d).id = t)
          ∨ (¬ o (H.pass d) = true ∧ ¬ i (H.pass d) = true ∧ CVia H o i t d)) := by
  intro ls
  induction ls with
  | nil =>
    intro c b c' h _ _
    simp only [findDep, Option.some.injEq, Prod.mk.injEq] at h
    obtain ⟨rfl, rfl⟩ := h
    exact ⟨AddsExact.refl _ _ _ _ _ _, Grows.refl _, by simp⟩
  | cons l ls ih =>
    intro c b c' h hr hs
    have ih := fun c b c' h => ih c b c' h (fun x hx => hr x (by simp [hx]))
    unfold findDep at h
    split at h
    · rename_i ho
      split at h
      · rename_i ht
        simp only [Option.some.injEq, Prod.mk.injEq] at h
        obtain ⟨rfl, rfl⟩ := h
        exact ⟨AddsExact.refl _ _ _ _ _ _, Grows.refl _, by simpa using .inl (.inl ⟨ho, ht.symm⟩)⟩
      · rename_i ht
        obtain ⟨h1, h2, h3⟩ := ih c b c' h hs
        refine ⟨h1, h2, h3.trans ?_⟩
        constructor
        · rintro ⟨d, hd, hx⟩; exact ⟨d, by simp [hd], hx⟩
        · rintro ⟨d, hd, hx⟩
          rcases List.mem_cons.1 hd with rfl | hd
          · rcases hx with hx | hx
            · exact absurd hx.2.symm ht
            · exact absurd ho hx.1
          · exact ⟨d, hd, hx⟩
    · rename_i ho
      split at h
      · rename_i hi
        split at h
        · simp at h
        · rename_i c1 e
          simp only [Option.some.injEq, Prod.mk.injEq] at h
          obtain ⟨rfl, rfl⟩ := h
          obtain ⟨h1, h2, h3⟩ := hrec _ _ _ _ e (hr l (by simp)) hs
          exact ⟨h1, h2, by simpa using .inl (.inr ⟨by simpa using ho, by simpa using hi, h3.1 rfl⟩)⟩
        · rename_i c1 e
          obtain ⟨h1, h2, h3⟩ := hrec _ _ _ _ e (hr l (by simp)) hs
          obtain ⟨h4, h5, h6⟩ := ih c1 b c' h (h1.below hs)
          refine ⟨h1.trans h4 h2, h2.trans h5, h6.trans ?_⟩
          constructor
          · rintro ⟨d, hd, hx⟩; exact ⟨d, by simp [hd], hx⟩
          · rintro ⟨d, hd, hx⟩
            rcases List.mem_cons.1 hd with rfl | hd
            · rcases hx with hx | hx
              · exact absurd hx.1 ho
              · exact absurd (h3.2 hx.2.2) (by simp)
            · exact ⟨d, hd, hx⟩
      · rename_i hi
        obtain ⟨h1, h2, h3⟩ := ih c b c' h hs
        refine ⟨h1, h2, h3.trans ?_⟩
        constructor
        · rintro ⟨d, hd, hx⟩; exact ⟨d, by simp [hd], hx⟩
        · rintro ⟨d, hd, hx⟩
          rcases List.mem_cons.1 hd with rfl | hd
          · rcases hx with hx | hx
            · exact absurd hx.1 ho
            · exact absurd (by simpa using hi) hx.2.1
          · exact ⟨d, hd, hx⟩

theorem dependsOnN_exact (H : Heap) (o i : DPass → Bool) (t k : Nat) (rank : Nat → Nat)
    (hrank : ∀ a d, d ∈ (H.pass a).deps → rank d < rank a) : ∀ (n a : Nat) (c : Cache) (b : Bool) (c' : Cache),
    dependsOnN H o i t k n a c = some (b, c') → ExactBelow H o i t k rank (rank a + 1) c →
    AddsExact H o i t k c c' ∧ Grows c c' ∧ (b = true ↔ CVia H o i t a) := by
  intro n
  induction n with
  | zero => intro a c b c' h; simp [dependsOnN] at h
  | succ n ih =>
    intro a c b c' h hs
    unfold dependsOnN at h
    split at h
    · rename_i b0 hc
      simp only [Option.some.injEq, Prod.mk.injEq] at h
      obtain ⟨rfl, rfl⟩ := h
      exact ⟨AddsExact.refl _ _ _ _ _ _, Grows.refl _, hs a b0 (by omega) hc⟩
    · rename_i hc
      split at h
      · simp at h
      · rename_i b1 c1 e
        simp only [Option.some.injEq, Prod.mk.injEq] at h
        obtain ⟨rfl, rfl⟩ := h
        have hs0 : ExactBelow H o i t k rank (rank a) (c.set a k false) := by
          intro x b hx hb
          rw [Cache.set_other _ _ _ _ _ _ (by rintro ⟨rfl, -⟩; omega)] at hb
          exact hs x b (by omega) hb
        obtain ⟨h1, h2, h3⟩ := findDep_exact H o i t k rank (rank a) _
          (fun a' c b c' h hl hs => ih a' c b c' h fun x b hx hb => hs x b (by omega) hb) _ _ _ _ e
          (fun x hx => hrank a x hx) hs0
        have hv : b1 = true ↔ CVia H o i t a := h3.trans (via_iff H (fun p => o p = true) (fun p => i p = true) t a).symm
        refine ⟨?_, (grows_set c a k false).trans (h2.trans (grows_set c1 a k b1)), hv⟩
        intro x b hx
        by_cases hxa : x = a
        · subst hxa
          rw [Cache.set_same, Option.some.injEq] at hx
          subst hx
          exact .inr ⟨hc, hv⟩
        · rw [Cache.set_other _ _ _ _ _ _ (fun h => hxa h.1)] at hx
          rcases h1 x b hx with h4 | h4
          · rw [Cache.set_other _ _ _ _ _ _ (fun h => hxa h.1)] at h4; exact .inl h4
          · rw [Cache.set_other _ _ _ _ _ _ (fun h => hxa h.1)] at h4; exact .inr h4

/-- All entries for the key are right. -/
def ExactAt (H : Heap) (o i : DPass → Bool) (t k : Nat) (c : Cache) : Prop :=
  ∀ x b, c x k = some b → (b = true ↔ CVia H o i t x)

theorem dependsOn_exact (H : Heap) (hcl : Closed H) (hac : Acyclic H) (o i : DPass → Bool) (t k a : Nat) (c : Cache)
    (ha : a ∈ H.univ) (hs : ExactAt H o i t k c) :
    ExactAt H o i t k (dependsOn H o i t k a c).2 ∧ ((dependsOn H o i t k a c).1 = true ↔ CVia H o i t a) := by
  obtain ⟨rank, hrank⟩ := hac
  obtain ⟨h1, -, h3⟩ := dependsOnN_exact H o i t k rank hrank _ _ _ _ _ (dependsOn_eq H hcl o i t k a c ha)
    (fun x b _ h => hs x b h)
  refine ⟨?_, h3⟩
  intro x b e
  rcases h1 x b e with h | ⟨-, h⟩
  · exact hs x b h
  · exact h

theorem onlyKey_findDep (H : Heap) (o i : DPass → Bool) (t k : Nat) (rec : Nat → Cache → Option (Bool × Cache))
    (hrec : ∀ a c b c', rec a c = some (b, c') → OnlyKey k c c') :
    ∀ (ls : List Nat) (c : Cache) (b : Bool) (c' : Cache), findDep H o i t rec ls c = some (b, c') → OnlyKey k c c' := by
  intro ls
  induction ls with
  | nil =>
    intro c b c' h
    simp only [findDep, Option.some.injEq, Prod.mk.injEq] at h
    rw [h.2]; exact OnlyKey.refl _ _
  | cons l ls ih =>
    intro c b c' h
    unfold findDep at h
    split at h
    · split at h
      · simp only [Option.some.injEq, Prod.mk.injEq] at h
        rw [h.2]; exact OnlyKey.refl _ _
      · exact ih _ _ _ h
    · split at h
      · split at h
        · simp at h
        · rename_i c1 e
          simp only [Option.some.injEq, Prod.mk.injEq] at h
          rw [← h.2]; exact hrec _ _ _ _ e
        · rename_i c1 e
          exact (hrec _ _ _ _ e).trans (ih _ _ _ h)
      · exact ih _ _ _ h

theorem onlyKey_dependsOnN (H : Heap) (o i : DPass → Bool) (t k : Nat) : ∀ (n a : Nat) (c : Cache) (b : Bool)
    (c' : Cache), dependsOnN H o i t k n a c = some (b, c') → OnlyKey k c c' := by
  intro n
  induction n with
  | zero => intro a c b c' h; simp [dependsOnN] at h
  | succ n ih =>
    intro a c b c' h
    unfold dependsOnN at h
    split at h
    · simp only [Option.some.injEq, Prod.mk.injEq] at h
      rw [h.2]; exact OnlyKey.refl _ _
    · split at h
      · simp at h
      · rename_i b1 c1 e
        simp only [Option.some.injEq, Prod.mk.injEq] at h
        rw [← h.2]
        exact (onlyKey_set _ _ _ _).trans ((onlyKey_findDep H o i t k _ ih _ _ _ _ e).trans (onlyKey_set _ _ _ _))

theorem dependsOn_onlyKey (H : Heap) (o i : DPass → Bool) (t k a : Nat) (c : Cache) :
    OnlyKey k c (dependsOn H o i t k a c).2 := by
  unfold dependsOn
  cases h : dependsOnN H o i t k (H.univ.length + 1) a c with
  | none => exact OnlyKey.refl _ _
  | some r => exact onlyKey_dependsOnN H o i t k _ _ _ _ _ h

end Verif.Deps
