import Verif.Model.RecordContext
import Verif.Model.Attachment
/-
Model of the recording of passes and graphs.
Modelled code: /repo/source/RenderGraph/RunnablePass.cpp (getAlignedSize 22-28, convert 44-59, constructor 245-299,
initialise 309-315, recordCurrentInto 317-325, recordInto 363-501),
/repo/source/RenderGraph/RunnableGraph.cpp (mergeRanges 50-82, gatherNextImageLayouts 84-117, getNextState 119-132,
constructor 262-268, record 287-345, getCurrentLayoutState 417-447, getNextLayoutState 458-477) and
/repo/source/RenderGraph/FrameGraph.cpp (get/addInput, get/addOutput, registerFinalState 232-332).
Not modelled here: merged views (`ImageViewData::source`), debug blocks, timers, command buffer begin/end, the snapshot
of the context that resettable passes keep (Model/Rerecord.lean).
-/
namespace Verif.Run
open Verif.Rec Verif.Att

/-- `details::getAlignedSize`, RunnablePass.cpp:22-28. -/
def getAlignedSize (size align : Nat) : Nat :=
  let rem := size % align
  if rem ≠ 0 then size + (align - rem) else size

/-- `VK_WHOLE_SIZE`. -/
def wholeSize : Nat := 2 ^ 64 - 1

/-! ### Ordered maps (`std::map`), as key-sorted lists. -/

/-- `std::map< uint32_t, α >`. -/
abbrev OMap (α : Type) := List (Nat × α)

namespace OMap
variable {α : Type}
/-- `map::find` -/
def find : OMap α → Nat → Option α
  | [], _ => none
  | (k, v) :: r, x => if k = x then some v else find r x
/-- `map::insert_or_assign` -/
def put (x : Nat) (v : α) : OMap α → OMap α
  | [] => [(x, v)]
  | (k, w) :: r => if x < k then (x, v) :: (k, w) :: r else if x = k then (x, v) :: r else (k, w) :: put x v r
/-- `map::erase( key )` -/
def del (x : Nat) : OMap α → OMap α
  | [] => []
  | (k, w) :: r => if k = x then r else (k, w) :: del x r
end OMap

/-- `LayerLayoutStates` as an ordered map, FrameGraphPrerequisites.hpp:160-161. -/
abbrev Layers := OMap (OMap LayoutState)
/-- `LayerLayoutStatesMap` as an ordered map, FrameGraphPrerequisites.hpp:163. -/
abbrev Images := OMap Layers

/-- `addSubresourceRangeLayout`, FrameGraph.cpp:562-578, on ordered maps. -/
def addRange (m : Layers) (r : Range) (s : LayoutState) : Layers :=
  (List.range r.layers).foldl (fun m l =>
    m.put (r.baseLayer + l) ((List.range r.levels).foldl (fun n v => n.put (r.baseMip + v) s)
      ((m.find (r.baseLayer + l)).getD []))) m

/-- `LayerLayoutStatesHandler::setLayoutState`, LayerLayoutStatesHandler.cpp:26-38, on ordered maps. -/
def Images.set (m : Images) (v : View) (s : LayoutState) : Images :=
  m.put v.image.id (addRange ((m.find v.image.id).getD []) (getVirtualRange v.image v.viewType v.range) s)

/-- State of a subresource. -/
def Images.at (m : Images) (i l v : Nat) : Option LayoutState :=
  ((m.find i).bind (·.find l)).bind (·.find v)

/-- The ordered map as the partial function used by the tracker model (Model/Layout.lean). -/
def Images.toMap (m : Images) : LayoutMap := fun i =>
  (m.find i).map fun x l v => (x.find l).bind (·.find v)

/-! ### Passes -/

/-- `RunnablePass` with its `FramePass`, as far as recording reads it (RunnablePass.hpp:346-357). The body is
the composition of the pre-pass actions, the record callback and the post-pass actions (RunnablePass.cpp:476-486),
given the pass index. -/
structure RunPass where
  id : Nat
  /-- `ruConfig.maxPassCount`: how many indices the pass was built for -/
  maxPassCount : Nat
  /-- `callbacks.isComputePass()` -/
  compute : Bool
  /-- `m_pipelineState` -/
  state : AccessState
  images : List Attachment
  buffers : List Attachment
  /-- `ruConfig.implicitActions` -/
  implicitActions : List (View × Action)
  body : Nat → Rec → Rec

/-- The views of an image attachment, in the order the constructor visits them: `view( i )` for every
`i < getViewCount()`. -/
def attachViews (a : Attachment) : List View := a.img.views

/-- `m_imageLayouts` built by the constructor, RunnablePass.cpp:260-287. -/
def RunPass.layouts (sepDS : Bool) (p : RunPass) : Images :=
  p.images.foldl (fun m a =>
    (attachViews a).foldl (fun m v => Images.set m v
      ⟨a.getImageLayout sepDS, ⟨a.getAccessMask, a.getPipelineStageFlags p.compute⟩⟩) m) []

/-- What `FrameGraph` remembers and declares (FrameGraph.hpp members m_inputs, m_outputs, m_finalState). -/
structure GraphSt where
  inputs : LayoutMap
  outputs : Images
  final : Ctx

/-- `RunnableGraph::getCurrentLayoutState`, RunnableGraph.cpp:417-447. -/
def getCurrentLayoutState (G : GraphSt) (c : Ctx) (v : View) : LayoutState × Ctx :=
  let result := c.images.getState v.image v.viewType v.range
  let rc :=
    if result.layout = Layout.undefined then
      let result := G.inputs.getState v.image v.viewType v.range
      if result.layout ≠ Layout.undefined then (result, c.setLayout v.image v.viewType v.range result)
      else (result, c)
    else (result, c)
  if rc.1.layout = Layout.undefined then
    let result := G.final.images.getState v.image v.viewType v.range
    if result.layout ≠ Layout.undefined then (result, rc.2.setLayout v.image v.viewType v.range result)
    else (result, rc.2)
  else rc

/-- `RunnableGraph::getNextLayoutState`, RunnableGraph.cpp:458-477. -/
def getNextLayoutState (sepDS : Bool) (G : GraphSt) (c : Ctx) (p : RunPass) (v : View) : LayoutState :=
  let result := c.nextImages.getState v.image v.viewType v.range
  let result :=
    if result.layout = Layout.undefined then G.outputs.toMap.getState v.image v.viewType v.range else result
  if result.layout = Layout.undefined then (p.layouts sepDS).toMap.getState v.image v.viewType v.range else result

/-- The attachments `recordInto` moves itself, RunnablePass.cpp:395-396. -/
def moved (a : Attachment) : Bool :=
  !a.isNoTransition && (a.isSampledView || a.isStorageView || a.isTransferView || a.isTransitionView)

/-- `LayoutState{ TRANSFER_DST, { TRANSFER_WRITE, TRANSFER } }`, RunnablePass.cpp:408-409. -/
def clearState : LayoutState := ⟨Layout.transferDst, ⟨Access.transferWrite, Stage.transfer⟩⟩

/-- One image attachment, RunnablePass.cpp:389-440; `none` is an out of range view index. -/
def recordImage (env : Env) (G : GraphSt) (index : Nat) (r : Rec) (a : Attachment) : Option Rec :=
  match a.img.view index with
  | none => none
  | some v =>
    let r := r.runImplicit env v
    if moved a then
      let needed := makeLayoutState (a.getImageLayout env.sepDS)
      let cur : LayoutState × Ctx :=
        if !a.isInput then (makeLayoutState Layout.undefined, r.ctx) else getCurrentLayoutState G r.ctx v
      let r : Rec := { r with ctx := cur.2 }
      if a.isClearableImage then
        let r := r.viewBarrier env v cur.1.layout clearState
        let r := r.emit (.clearImage (isColourFormat v.format) v.image.id Layout.transferDst v.range 0)
        some (r.viewBarrier env v Layout.transferDst needed)
      else some (r.viewBarrier env v cur.1.layout needed)
    else some r

/-- The buffers `recordInto` guards itself, RunnablePass.cpp:444-445. -/
def guarded (a : Attachment) : Bool :=
  !a.isNoTransition && (a.isStorageBuffer || a.isTransferBuffer || a.isTransitionBuffer)

/-- One buffer attachment, RunnablePass.cpp:442-474; `none` is an out of range buffer index. -/
def recordBuffer (compute : Bool) (index : Nat) (r : Rec) (a : Attachment) : Option Rec :=
  if guarded a then
    match a.buf.buffer index with
    | none => none
    | some b =>
      let cur := r.ctx.getAccess b
      let wanted : AccessState := ⟨a.getAccessMask, a.getPipelineStageFlags compute⟩
      if a.isClearableBuffer then
        let r := r.bufferBarrier b a.buf.offset a.buf.size cur ⟨Access.transferWrite, Stage.transfer⟩
        let r := r.emit (.fillBuffer b
          (if a.buf.offset = 0 then 0 else getAlignedSize a.buf.offset 4)
          (if a.buf.size = wholeSize then wholeSize else getAlignedSize a.buf.size 4))
        some (r.bufferBarrier b a.buf.offset a.buf.size ⟨Access.transferWrite, Stage.transfer⟩ wanted)
      else some (r.bufferBarrier b a.buf.offset a.buf.size cur wanted)
  else some r

/-- `for ( auto & attach : … )` over a step that may have no result. -/
def foldOpt {α : Type} (f : Rec → α → Option Rec) : Rec → List α → Option Rec
  | r, [] => some r
  | r, a :: as => match f r a with | none => none | some r => foldOpt f r as

/-- What `recordInto` does before the pass body, RunnablePass.cpp:389-474. -/
def prepare (env : Env) (G : GraphSt) (p : RunPass) (index : Nat) (r : Rec) : Option Rec :=
  match foldOpt (recordImage env G index) r p.images with
  | none => none
  | some r => foldOpt (recordBuffer p.compute index) r p.buffers

/-- Registration of the implicit actions, RunnablePass.cpp:493-496. -/
def registerAll (p : RunPass) (r : Rec) : Rec :=
  p.implicitActions.foldl (fun r va => r.register ⟨p.id, va.1, va.2⟩) r

/-- What passes do that isn't a command: initialisation callback, body. -/
inductive Event where
  | init (pass index : Nat)
  | run (pass index : Nat)
deriving DecidableEq, Repr

/-- A recording with the initialisation state of the passes (`PassData::initialised`). -/
structure Frame where
  recd : Rec
  initialised : Nat → Nat → Bool
  log : List Event

/-- `RunnablePass::initialise`, RunnablePass.cpp:309-315; the index is in range. -/
def Frame.initialise (f : Frame) (p : RunPass) (index : Nat) : Frame :=
  { f with
    log := f.log ++ [.init p.id index]
    initialised := fun q i => if q = p.id ∧ i = index then true else f.initialised q i }

/-- `RunnablePass::recordInto`, RunnablePass.cpp:363-501; `none` is undefined behaviour (index out of range). -/
def recordInto (env : Env) (G : GraphSt) (p : RunPass) (index : Nat) (f : Frame) : Option Frame :=
  if env.enabled p.id then
    if index < p.maxPassCount then
      let f := if !f.initialised p.id index then f.initialise p index else f
      match prepare env G p index f.recd with
      | none => none
      | some r => some { f with recd := registerAll p (p.body index r), log := f.log ++ [.run p.id index] }
    else none
  else some { f with recd := registerAll p f.recd }

/-! ### The graph -/

/-- `rungrf::mergeRanges`, RunnableGraph.cpp:50-82. -/
def mergeRanges (next : Images) (img : Nat) (cur : Layers) : Layers :=
  match next.find img with
  | none => []
  | some nxt =>
    cur.foldl (fun res (lc : Nat × OMap LayoutState) =>
      match nxt.find lc.1 with
      | none => res
      | some nl => res.put lc.1 (lc.2.foldl (fun inner (mc : Nat × LayoutState) =>
          match nl.find mc.1 with
          | none => inner
          | some s => inner.put mc.1 s) ((res.find lc.1).getD []))) []

/-- The `find_if` of `gatherNextImageLayouts`, RunnableGraph.cpp:99-106: the first image of the current pass
with a non-empty merge. -/
def firstShared (next : Images) : Images → Option (Nat × Layers)
  | [] => none
  | (i, cur) :: r =>
    let m := mergeRanges next i cur
    if m.isEmpty then firstShared next r else some (i, m)

/-- `rungrf::gatherNextImageLayouts`, RunnableGraph.cpp:84-117, accumulating the result. -/
def gather (sepDS : Bool) (enabled : Nat → Bool) : Images → List RunPass → Images → Images
  | _, [], result => result
  | cur, p :: ps, result =>
    if cur.isEmpty then result
    else if enabled p.id then
      match firstShared (p.layouts sepDS) cur with
      | none => gather sepDS enabled cur ps result
      | some (i, m) => gather sepDS enabled (cur.del i) ps (result.put i m)
    else gather sepDS enabled cur ps result

/-- `rungrf::getNextState`, RunnableGraph.cpp:119-132. -/
def getNextState (enabled : Nat → Bool) (cur : AccessState) (next : List RunPass) : AccessState :=
  match next.find? (fun p => enabled p.id) with
  | some p => p.state
  | none => cur

/-- The `setNextPipelineState` call made before each pass, RunnableGraph.cpp:321-333. -/
def announce (env : Env) (G : GraphSt) (p : RunPass) (next : List RunPass) (c : Ctx) : Ctx :=
  if next.isEmpty then c.setNext p.state G.outputs.toMap
  else c.setNext (getNextState env.enabled p.state next)
    (gather env.sepDS env.enabled (p.layouts env.sepDS) next []).toMap

/-- The `while` loop of `RunnableGraph::record`, RunnableGraph.cpp:316-337. `index` gives each pass's current
index (`getPassIndex`). -/
def recordLoop (env : Env) (G : GraphSt) (index : Nat → Nat) : List RunPass → Frame → Option Frame
  | [], f => some f
  | p :: next, f =>
    let f : Frame := { f with recd := { f.recd with ctx := announce env G p next f.recd.ctx } }
    match recordInto env G p (index p.id) f with
    | none => none
    | some f => recordLoop env G index next f

/-- The context `record` starts with, RunnableGraph.cpp:291-297. -/
def startCtx (deps : List Ctx) : Ctx := deps.foldl Ctx.addStates Ctx.new

/-- The first announcement, RunnableGraph.cpp:302-307. -/
def firstAnnounce (sepDS : Bool) (passes : List RunPass) (c : Ctx) : Ctx :=
  match passes with
  | [] => c
  | p :: _ => c.setNext p.state (p.layouts sepDS).toMap

/-- `RunnableGraph::record`, RunnableGraph.cpp:287-345, given the final states of the dependencies. The graph's
final state becomes the context. -/
def record (env : Env) (G : GraphSt) (deps : List Ctx) (index : Nat → Nat) (passes : List RunPass)
    (initialised : Nat → Nat → Bool) (log : List Event) : Option (GraphSt × Frame) :=
  let c := firstAnnounce env.sepDS passes (startCtx deps)
  match recordLoop env G index passes ⟨⟨c, []⟩, initialised, log⟩ with
  | none => none
  | some f => some ({ G with final := f.recd.ctx }, f)

/-- The end of the constructor, RunnableGraph.cpp:262-268: enabled passes are initialised with their index. -/
def construct (enabled : Nat → Bool) (index : Nat → Nat) (passes : List RunPass) : Frame :=
  passes.foldl (fun f p => if enabled p.id then f.initialise p (index p.id) else f)
    ⟨⟨Ctx.new, []⟩, fun _ _ => false, []⟩

/-! ### Submission -/

/-- `SemaphoreWait`; the null semaphore is 0. -/
structure Wait where
  semaphore : Nat
  stage : Nat
deriving DecidableEq, Repr

/-- `convert`, RunnablePass.cpp:44-59. -/
def convert (toWait : List Wait) : List Nat × List Nat :=
  toWait.foldl (fun (acc : List Nat × List Nat) w =>
    if w.semaphore ≠ 0 ∧ w.semaphore ∉ acc.1 then (acc.1 ++ [w.semaphore], acc.2 ++ [w.stage]) else acc) ([], [])

end Verif.Run
