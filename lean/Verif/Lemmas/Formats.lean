import Verif.Model.Vk
import Verif.Spec.Formats
/-! The aspects computed by the library are those of the specification. -/
namespace Verif

theorem formats_aspects (f : Nat) : getAspectMask f = aspects f
    ∧ (isColourFormat f = true ↔ aspects f = 1)
    ∧ (isDepthFormat f = true ↔ (aspects f).testBit 1 = true)
    ∧ (isStencilFormat f = true ↔ (aspects f).testBit 2 = true) := by
  by_cases h : 124 ≤ f ∧ f ≤ 130
  · have : f = 124 ∨ f = 125 ∨ f = 126 ∨ f = 127 ∨ f = 128 ∨ f = 129 ∨ f = 130 := by omega
    rcases this with rfl | rfl | rfl | rfl | rfl | rfl | rfl <;> decide
  · have hd : isDepthFormat f = false := by
      simp only [isDepthFormat, Format.d16, Format.x8d24, Format.d32, Format.d16s8, Format.d24s8, Format.d32s8,
        Bool.or_eq_false_iff, beq_eq_false_iff_ne]
      omega
    have hs : isStencilFormat f = false := by
      simp only [isStencilFormat, Format.s8, Format.d16s8, Format.d24s8, Format.d32s8,
        Bool.or_eq_false_iff, beq_eq_false_iff_ne]
      omega
    have ha : aspects f = 1 := by
      unfold aspects
      split <;> first | omega | rfl
    rw [ha]
    simp [getAspectMask, isDepthStencilFormat, isColourFormat, hd, hs, Aspect.color]
    decide

theorem getAspectMask_eq (f : Nat) : getAspectMask f = aspects f := (formats_aspects f).1

theorem isDepthStencil_iff (f : Nat) : isDepthStencilFormat f = true ↔ aspects f = 6 := by
  have h := formats_aspects f
  unfold isDepthStencilFormat
  rw [Bool.and_eq_true, h.2.2.1, h.2.2.2]
  unfold aspects
  split <;> simp (config := { decide := true })

end Verif
