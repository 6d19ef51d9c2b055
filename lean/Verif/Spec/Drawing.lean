import Verif.Model.Drawing
import Verif.Spec.Pipeline
/-
The specification side of the quad and mesh pass properties.
-/
namespace Verif.Draw
open Verif.Rec Verif.Att Verif.Run

/-- The format of the attachment a reference designates. -/
def refFormat (o : RPass.PassObj) (r : RPass.Ref) : Option Nat := o.descs[r.attachment]?.map (·.format)

/-- The depth reference of the subpass, if it has one. -/
def depthRef (o : RPass.PassObj) : Option RPass.Ref := if o.depth.layout ≠ 0 then some o.depth else none

/-- Compatibility of the references of two single subpass render passes (Vulkan, "Render Pass Compatibility"):
corresponding colour references, and the depth references, designate attachments of the same format, or neither exists.
(Sample counts are not modelled.) -/
structure SameReferences (o o' : RPass.PassObj) : Prop where
  colours : o.colours.map (refFormat o) = o'.colours.map (refFormat o')
  depth : (depthRef o).map (refFormat o) = (depthRef o').map (refFormat o')

/-- Two render passes are compatible: their references are, and they are identical except for layouts, load and store
operations; what is left is their dependencies. -/
structure Compatible (o o' : RPass.PassObj) : Prop extends SameReferences o o' where
  deps : o.deps = o'.deps

/-- All the views an attachment may have, one per index, have the same format. -/
def OneFormat (p : RunPass) : Prop :=
  ∀ a ∈ p.images, ∀ v ∈ a.img.views, ∀ w ∈ a.img.views, v.format = w.format

/-- How a drawing pass is used: `resetPipeline` is not called before the first recording; destruction comes last, only
runs of the graph follow. `started`: something was recorded. -/
def Legal (started : Prop) : List Op → Prop
  | [] => True
  | .record _ _ _ :: os => Legal True os
  | .reset _ _ :: os => started ∧ Legal started os
  | .run :: os => Legal started os
  | .finish :: os => ∀ o ∈ os, o = .run

/-- The pass is only used with one index. -/
def OnlyIndex (i : Nat) (ops : List Op) : Prop :=
  ∀ o ∈ ops, match o with | .record _ _ j => j = i | .reset _ j => j = i | _ => True

/-- The last render pass was made for this index. -/
def LastFor (D : St) (i : Nat) : Prop := ∃ m, D.made.head? = some m ∧ m.index = i

/-- The pixels a viewport (or scissor) lets draws reach. -/
def States.covers (s : States) (x y : Nat) : Prop := s.x ≤ x ∧ x < s.x + s.width ∧ s.y ≤ y ∧ y < s.y + s.height

/-- The pixels of the render area of a render pass. -/
def inArea (o : RPass.PassObj) (x y : Nat) : Prop := x < o.width ∧ y < o.height

/-- No target is larger than the configured size: what the area is computed from, the first view of each. -/
def NoLarger (p : RunPass) (w h : Nat) : Prop :=
  ∀ a ∈ p.images, RPass.isTarget a = true → ∀ v, a.img.view 0 = some v →
    v.image.width >>> v.range.baseMip ≤ w ∧ v.image.height >>> v.range.baseMip ≤ h

end Verif.Draw
