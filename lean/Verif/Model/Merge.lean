import Verif.Model.Vk
/-
Model of `FramePass::mergeViews`, /repo/source/RenderGraph/FramePass.cpp:544-638, up to the call of
`FrameGraph::createView`. All counts are `uint32_t`: additions wrap.
-/
namespace Verif.Merge

/-- A view given to `mergeViews` (`ImageViewData`: image, view type, format, range). Creation flags, components and name
are copied from the first view or the image and not modelled. -/
structure Src where
  image : Nat
  viewType : ViewType
  format : Nat
  range : Range
deriving DecidableEq, Repr

/-- `a + b` in `uint32_t`. -/
def add32 (a b : Nat) : Nat := (a + b) % 2 ^ 32
/-- `a - b` in `uint32_t`. -/
def sub32 (a b : Nat) : Nat := (a + 2 ^ 32 - b) % 2 ^ 32

/-- The `else` branch of the loop, FramePass.cpp:562-596. -/
def step (mergeMips mergeLayers : Bool) (d v : Range) : Range :=
  let baseMip := min v.baseMip d.baseMip
  let levels :=
    if mergeMips then sub32 (max (add32 d.levels d.baseMip) (add32 v.levels v.baseMip)) baseMip else 1
  let baseLayer := min v.baseLayer d.baseLayer
  let layers :=
    if mergeLayers then sub32 (max (add32 d.layers d.baseLayer) (add32 v.layers v.baseLayer)) baseLayer else 1
  { d with baseMip := baseMip, levels := levels, baseLayer := baseLayer, layers := layers }

/-- The view type promotion, FramePass.cpp:601-635; `cube` is the cube compatible flag of the image. -/
def promote (cube : Bool) (vt : ViewType) (r : Range) : ViewType :=
  if r.layers > 1 then
    match vt with
    | .d1 => .d1Array
    | .d2 =>
      if cube && r.layers % 6 == 0 && r.baseLayer == 0 then if r.layers > 6 then .cubeArray else .cube
      else .d2Array
    | .cube => if r.layers > 6 then .cubeArray else .cube
    | vt => vt
  else vt

/-- `mergeViews`: the description of the view created, for a first view and further ones (the views have a non-zero
image id, so that the first iteration only takes the `if` branch, 553-560). The assertion that all images are the same
(564) is a hypothesis of the theorems. -/
def mergeViews (cube mergeMips mergeLayers : Bool) (v : Src) (vs : List Src) : Src :=
  let r := vs.foldl (fun d x => step mergeMips mergeLayers d x.range) v.range
  { v with viewType := promote cube v.viewType r, range := r }

end Verif.Merge
