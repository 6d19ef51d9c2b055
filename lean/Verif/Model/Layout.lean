import Verif.Model.Vk
/-
Model of the per-subresource layout tracker.
Modelled code: /repo/source/RenderGraph/FrameGraph.cpp:562-638 (addSubresourceRangeLayout,
getSubresourceRangeLayout, getVirtualRange), /repo/source/RenderGraph/LayerLayoutStatesHandler.cpp (whole file).
-/
namespace Verif

/-- `LayerLayoutStates = map< layer, map< mip, LayoutState > >` (FrameGraphPrerequisites.hpp:160-161), as a
partial function `layer → mip → LayoutState`; empty inner maps are not distinguished from absent ones, no
modelled function can tell. -/
abbrev LayerStates := Nat → Nat → Option LayoutState

/-- `LayerLayoutStatesMap = map< image id, LayerLayoutStates >` (FrameGraphPrerequisites.hpp:163); `none` when
the image has no entry. -/
abbrev LayoutMap := Nat → Option LayerStates

namespace LayoutMap
/-- A default constructed `LayerLayoutStatesHandler`. -/
def empty : LayoutMap := fun _ => none
end LayoutMap

/-- `addSubresourceRangeLayout`, FrameGraph.cpp:562-578: `insert_or_assign` of every (layer, mip) of the range. -/
def addSubresourceRangeLayout (m : LayerStates) (r : Range) (s : LayoutState) : LayerStates :=
  (List.range r.layers).foldl (fun m l =>
    (List.range r.levels).foldl (fun m v =>
      fun layer mip => if layer = r.baseLayer + l ∧ mip = r.baseMip + v then some s else m layer mip) m) m

/-- `states.emplace( state.layout, state )`, else `rit->second.state.access |= state.state.access`,
FrameGraph.cpp:601-609, on an ordered `std::map` kept as a key-sorted list. -/
def emplaceState (s : LayoutState) : List LayoutState → List LayoutState
  | [] => [s]
  | t :: r =>
    if s.layout < t.layout then s :: t :: r
    else if s.layout = t.layout then
      { t with state := { t.state with access := t.state.access ||| s.state.access } } :: r
    else t :: emplaceState s r

/-- The states found in a range, in visiting order, FrameGraph.cpp:584-600. -/
def foundStates (m : LayerStates) (r : Range) : List LayoutState :=
  (List.range r.layers).flatMap fun l =>
    (List.range r.levels).filterMap fun v => m (r.baseLayer + l) (r.baseMip + v)

/-- `getSubresourceRangeLayout`, FrameGraph.cpp:580-623. -/
def getSubresourceRangeLayout (m : LayerStates) (r : Range) : LayoutState :=
  match (foundStates m r).foldl (fun acc s => emplaceState s acc) [] with
  | [] => ⟨Layout.undefined, ⟨getAccessMask Layout.undefined, getStageMask Layout.undefined⟩⟩
  | s :: _ => s

/-- `getVirtualRange`, FrameGraph.cpp:625-638. -/
def getVirtualRange (img : Image) (vt : ViewType) (r : Range) : Range :=
  if vt = .d3 ∧ (r.levels = 1 ∨ r.levels = img.mipLevels) then
    { r with baseLayer := 0, layers := img.depth >>> r.baseMip }
  else r

namespace LayoutMap

/-- `LayerLayoutStatesHandler::addStates`, LayerLayoutStatesHandler.cpp:18-24 (`map::insert` keeps existing). -/
def addStates (m d : LayoutMap) : LayoutMap := fun i =>
  match m i with
  | some x => some x
  | none => d i

/-- `LayerLayoutStatesHandler::setLayoutState`, LayerLayoutStatesHandler.cpp:26-38. -/
def setState (m : LayoutMap) (img : Image) (vt : ViewType) (r : Range) (s : LayoutState) : LayoutMap :=
  fun i =>
    if i = img.id then
      some (addSubresourceRangeLayout ((m img.id).getD (fun _ _ => none)) (getVirtualRange img vt r) s)
    else m i

/-- `LayerLayoutStatesHandler::getLayoutState`, LayerLayoutStatesHandler.cpp:51-65. -/
def getState (m : LayoutMap) (img : Image) (vt : ViewType) (r : Range) : LayoutState :=
  match m img.id with
  | some x => getSubresourceRangeLayout x (getVirtualRange img vt r)
  | none => ⟨Layout.undefined, ⟨0, Stage.bottomOfPipe⟩⟩

end LayoutMap

/-- Pointwise view of a layout map: the state recorded for one (image, layer, mip); vocabulary of the
statements, not code. -/
def LayoutMap.at (m : LayoutMap) (i layer mip : Nat) : Option LayoutState :=
  match m i with
  | some x => x layer mip
  | none => none

end Verif
