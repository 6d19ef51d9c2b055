import Verif.Model.Merge
import Verif.Spec.Layout
/-
Specification vocabulary for merged views.
-/
namespace Verif.Merge

/-- A range given explicitly (not with `VK_REMAINING_…`), non-empty, of a 32-bit image. -/
def Explicit (r : Range) : Prop :=
  0 < r.levels ∧ 0 < r.layers ∧ r.baseMip + r.levels < 2 ^ 32 ∧ r.baseLayer + r.layers < 2 ^ 32

/-- Layer counts Vulkan accepts for a view type (VUID-VkImageViewCreateInfo-imageViewType-04973, -02960, -02961). -/
def Holds (vt : ViewType) (layers : Nat) : Prop :=
  match vt with
  | .d1 => layers = 1
  | .d2 => layers = 1
  | .d3 => layers = 1
  | .d1Array => 0 < layers
  | .d2Array => 0 < layers
  | .cube => layers = 6
  | .cubeArray => 0 < layers ∧ layers % 6 = 0

instance (vt : ViewType) (n : Nat) : Decidable (Holds vt n) := by unfold Holds; split <;> infer_instance
instance (r : Range) : Decidable (Explicit r) := by unfold Explicit; infer_instance

end Verif.Merge
