import Verif.Model.Vk
/-
Specification vocabulary for image subresources: which (layer, mip) pairs a range denotes. Mentions no tracker
code.
-/
namespace Verif

/-- Subresource `(layer, mip)` belongs to the range. -/
def Range.Has (r : Range) (layer mip : Nat) : Prop :=
  r.baseLayer ≤ layer ∧ layer < r.baseLayer + r.layers ∧ r.baseMip ≤ mip ∧ mip < r.baseMip + r.levels

instance (r : Range) (l m : Nat) : Decidable (r.Has l m) := by unfold Range.Has; infer_instance

/-- Non-empty range. -/
def Range.NonEmpty (r : Range) : Prop := 0 < r.layers ∧ 0 < r.levels

instance (r : Range) : Decidable r.NonEmpty := by unfold Range.NonEmpty; infer_instance

/-- `a` only contains subresources of `b`. -/
def Range.Sub (a b : Range) : Prop := ∀ l m, a.Has l m → b.Has l m

/-- No common subresource. -/
def Range.Disjoint (a b : Range) : Prop := ∀ l m, ¬ (a.Has l m ∧ b.Has l m)

/-- The subresources a view of an image designates, the way the library numbers them: a 3D view of one mip
level, or of all of them, designates the depth slices of its base level as layers; any other view designates
its own range. (Stated here separately from the code's `getVirtualRange`.) -/
structure Designates (img : Image) (vt : ViewType) (r sub : Range) : Prop where
  mips : sub.baseMip = r.baseMip ∧ sub.levels = r.levels
  slices : vt = .d3 → (r.levels = 1 ∨ r.levels = img.mipLevels) →
    sub.baseLayer = 0 ∧ sub.layers = img.depth / 2 ^ r.baseMip
  plain : ¬ (vt = .d3 ∧ (r.levels = 1 ∨ r.levels = img.mipLevels)) →
    sub.baseLayer = r.baseLayer ∧ sub.layers = r.layers

end Verif
