import Verif.Model.Attachment
/-
Model of the GPU objects of the passes that run a program: descriptor set layout, pool and sets, pipelines.
Modelled code: /repo/source/RenderGraph/RunnablePasses/PipelineHolder.cpp, RenderPass.cpp 17-42 (getBindingsSizes),
ComputePass.cpp 51-70, 84-118, RenderQuadHolder.cpp 66-132, 165-193, RenderMeshHolder.cpp 66-151, 182-211,
RenderQuad.cpp 40-65, RenderMesh.cpp 40-66, RunnablePass.cpp 309-315 (`initialise`).
Every Vulkan call is an event `Ev` of a trace; handles are numbers, 0 is VK_NULL_HANDLE, and the device answers a
handle it never answered before. Shader programs are opaque numbers, 0 is the empty stage array. Not modelled: a
device call that fails or a missing entry point, viewport, blend and input states, push constants, additional
descriptor set layouts, shader stages of bindings, the sampler handle.
`none` is a failed assertion or an out of range access.
-/
namespace Verif.Pipe
open Verif.Att

/-- What a descriptor designates (`VkDescriptorImageInfo`, `VkDescriptorBufferInfo`, `VkBufferView`). -/
inductive Resource where
  | image (view : View) (layout : Nat)
  | buffer (buffer offset size : Nat)
  | texel (bufferView : Nat)
deriving DecidableEq, Repr

/-- `WriteDescriptorSet`, WriteDescriptorSet.hpp:10-90: binding, type and the only descriptor. -/
structure Write where
  binding : Nat
  type : DescType
  resource : Resource
deriving DecidableEq, Repr

/-- `VkDescriptorSetLayoutBinding`, with its count always 1: binding and type. -/
abbrev Binding := Nat × DescType

/-- Vulkan calls. -/
inductive Ev where
  /-- `vkCreateDescriptorSetLayout` -/
  | createSetLayout (h : Nat) (bindings : List Binding)
  | destroySetLayout (h : Nat)
  /-- `vkCreatePipelineLayout`, with the layout of set 0 -/
  | createPipeLayout (h setLayout : Nat)
  | destroyPipeLayout (h : Nat)
  | createPool (h maxSets : Nat) (sizes : List (DescType × Nat))
  | destroyPool (h : Nat)
  /-- `vkAllocateDescriptorSets` of one set -/
  | alloc (pool h setLayout : Nat)
  /-- one element of `vkUpdateDescriptorSets` -/
  | write (set : Nat) (w : Write)
  /-- `vkCreateComputePipelines`/`vkCreateGraphicsPipelines`, with the shader program, the render pass (0: none) and
  the pipeline layout -/
  | createPipe (h program renderPass layout : Nat)
  | destroyPipe (h : Nat)
  /-- `vkCmdBindPipeline` then `vkCmdBindDescriptorSets` -/
  | bind (pipe layout set : Nat)
deriving DecidableEq, Repr

/-- Attachment.hpp:404-412 -/
def isUniformBuffer (a : Attachment) : Bool := a.isBuffer && a.buf.isUniform
/-- Attachment.hpp:409-412 -/
def isUniformBufferView (a : Attachment) : Bool := a.isBuffer && (a.buf.isUniform && a.buf.isView)
/-- Attachment.hpp:446-449 -/
def isStorageBufferView (a : Attachment) : Bool := a.isBuffer && (a.buf.isStorage && a.buf.isView)

/-- `PipelineHolder::doFillDescriptorBindings`, PipelineHolder.cpp:297-332. -/
def fillBindings (images buffers : List Attachment) : List Binding :=
  (images.filter fun a => a.isSampledView || a.isStorageView).map (fun a => (a.binding, a.descType)) ++
  (buffers.filter fun a => isUniformBuffer a || a.isStorageBuffer || isUniformBufferView a || isStorageBufferView a).map
    fun a => (a.binding, a.descType)

/-- 32-bit arithmetic. -/
def w32 (n : Nat) : Nat := n % 4294967296

/-- The `find_if` loop of `getBindingsSizes`: adds to the entry of the type, or appends one, RenderPass.cpp:24-38. -/
def addSize (t : DescType) (n : Nat) : List (DescType × Nat) → List (DescType × Nat)
  | [] => [(t, n)]
  | e :: es => if t = e.1 then (e.1, w32 (e.2 + n)) :: es else e :: addSize t n es

/-- `getBindingsSizes`, RenderPass.cpp:17-42; each binding counts 1. -/
def getBindingsSizes (bs : List Binding) (maxSets : Nat) : List (DescType × Nat) :=
  bs.foldl (fun r b => addSize b.2 (w32 (1 * maxSets)) r) []

/-- `BufferAttachment::getWrite`, Attachment.cpp:69-89. -/
def bufferWrite (a : Attachment) (index : Nat) : Option Write :=
  (a.buf.buffer index).map fun b =>
    ⟨a.binding, a.buf.descType, if a.buf.isView then .texel a.buf.bufferView else .buffer b a.buf.offset a.buf.size⟩

/-- The write of an image attachment in `createDescriptorSet`, PipelineHolder.cpp:242-262: `some none` for the other
attachments, which are skipped. -/
def imageWrite (a : Attachment) (index : Nat) : Option (Option Write) :=
  if a.isSampledView then
    (a.img.view index).map fun v => some ⟨a.binding, .combinedImageSampler, .image v Layout.shaderReadOnly⟩
  else if a.isStorageView then
    (a.img.view index).map fun v => some ⟨a.binding, .storageImage, .image v Layout.general⟩
  else some none

/-- The writes of `createDescriptorSet`, PipelineHolder.cpp:242-271. -/
def fillWrites (images buffers : List Attachment) (index : Nat) : Option (List Write) := do
  let is ← images.mapM (imageWrite · index)
  let bs ← (buffers.filter fun a => a.isStorageBuffer || isUniformBuffer a).mapM (bufferWrite · index)
  return is.filterMap id ++ bs

/-- `PipelineHolder` members (PipelineHolder.hpp:72-95), the render pass remembered by the quad and mesh holders, the
deletion queue of the context, and the trace with the device's next handle. -/
structure St where
  images : List Attachment
  buffers : List Attachment
  /-- `m_baseConfig.m_programs` -/
  programs : List Nat
  /-- `m_baseConfig.m_programCreator` : `maxCount`, `create` -/
  creator : Option (Nat × (Nat → Nat))
  /-- `m_pipelines` -/
  pipelines : List Nat
  /-- `m_descriptorSets[i].set` -/
  sets : List Nat
  bindings : List Binding
  /-- `m_descriptorSetLayout`, `m_pipelineLayout`, `m_descriptorSetPool` -/
  setLayout : Nat
  layout : Nat
  pool : Nat
  /-- `m_renderPass` of RenderQuadHolder and RenderMeshHolder -/
  renderPass : Nat
  /-- RenderQuadHolder: `m_vertexBuffer` is set -/
  vertexBuffer : Bool
  /-- `m_context.delQueue`, restricted to the pipelines pushed by `resetPipeline` -/
  queue : List Nat
  next : Nat
  evs : List Ev

/-- Constructor, PipelineHolder.cpp:14-40. -/
def St.new (images buffers : List Attachment) (programs : List Nat) (creator : Option (Nat × (Nat → Nat)))
    (maxPassCount : Nat) : St :=
  let programs := match creator with
    | some (n, _) => programs.take n ++ List.replicate (n - programs.length) 0
    | none => programs
  { images, buffers, programs, creator, pipelines := List.replicate programs.length 0
    sets := List.replicate maxPassCount 0, bindings := [], setLayout := 0, layout := 0, pool := 0, renderPass := 0
    vertexBuffer := false, queue := [], next := 1, evs := [] }

def St.emit (s : St) (es : List Ev) : St := { s with evs := s.evs ++ es }

/-- `initialise`, PipelineHolder.cpp:47-56, 334-396. -/
def St.initialise (s : St) : St :=
  if s.layout = 0 then
    let bs := fillBindings s.images s.buffers
    { s with
      bindings := bs, setLayout := s.next, layout := s.next + 1, pool := s.next + 2, next := s.next + 3
      evs := s.evs ++ [.createSetLayout s.next bs, .createPipeLayout (s.next + 1) s.next,
        .createPool (s.next + 2) s.sets.length (getBindingsSizes bs s.sets.length)] }
  else s

/-- `cleanup`, PipelineHolder.cpp:58-110. -/
def St.cleanup (s : St) : St :=
  { s with
    bindings := [], sets := s.sets.map fun _ => 0, pool := 0, pipelines := s.pipelines.map fun _ => 0, layout := 0
    setLayout := 0
    evs := s.evs ++ (if s.pool ≠ 0 then [.destroyPool s.pool] else []) ++
      (s.pipelines.filter (· ≠ 0)).map .destroyPipe ++
      (if s.layout ≠ 0 then [.destroyPipeLayout s.layout] else []) ++
      (if s.setLayout ≠ 0 then [.destroySetLayout s.setLayout] else []) }

/-- The start of `getProgram`, PipelineHolder.cpp:114-118: the creator's program is stored. -/
def St.cacheProgram (s : St) (index : Nat) : Option St :=
  match s.creator with
  | some (n, create) => if index < n then some { s with programs := s.programs.set index (create index) } else none
  | none => some s

/-- `getProgram`, PipelineHolder.cpp:112-127: the program and the updated array. -/
def St.getProgram (s : St) (index : Nat) : Option (Nat × St) :=
  (s.cacheProgram index).bind fun s =>
    if s.programs.length = 1 then s.programs[0]?.map fun p => (p, s) else s.programs[index]?.map fun p => (p, s)

/-- Position answered by `getPipeline`, PipelineHolder.cpp:129-139. -/
def St.slot (s : St) (index : Nat) : Option Nat :=
  if s.programs.length = 1 then if s.pipelines.length = 1 then some 0 else none
  else if index < s.pipelines.length then some index else none

/-- `createPipeline`, PipelineHolder.cpp:141-191, called by the `doCreatePipeline` of the passes (ComputePass.cpp:106,
RenderQuadHolder.cpp:165, RenderMeshHolder.cpp:182), which get the program first. -/
def St.createPipeline (s : St) (index renderPass : Nat) : Option St := do
  let (prog, s) ← s.getProgram index
  let k ← s.slot index
  return { s with pipelines := s.pipelines.set k s.next, next := s.next + 1
                  evs := s.evs ++ [.createPipe s.next prog renderPass s.layout] }

/-- `RenderQuadHolder::doCreatePipeline` (165-193) and `RenderMeshHolder::doCreatePipeline` (182-211). -/
def St.createIfNone (s : St) (index : Nat) : Option St := do
  let k ← s.slot index
  if (← s.pipelines[k]?) ≠ 0 then return s else s.createPipeline index s.renderPass

/-- `resetPipeline`, PipelineHolder.cpp:203-231. -/
def St.resetPipeline (s : St) (program index : Nat) : Option St := do
  let k := if s.pipelines.length = 1 then 0 else index
  let h ← s.pipelines[k]?
  let s := if h ≠ 0 then { s with queue := s.queue ++ [h], pipelines := s.pipelines.set k 0 } else s
  if program ≠ 0 then
    if k < s.programs.length then return { s with programs := s.programs.set k program } else none
  else return s

/-- `createDescriptorSet`, PipelineHolder.cpp:233-295. -/
def St.createDescriptorSet (s : St) (index : Nat) : Option St := do
  let h ← s.sets[index]?
  if h ≠ 0 then return s
  let ws ← fillWrites s.images s.buffers index
  return { s with sets := s.sets.set index s.next, next := s.next + 1
                  evs := s.evs ++ .alloc s.pool s.next s.setLayout :: ws.map (.write s.next) }

/-- `recordInto`, PipelineHolder.cpp:193-201. -/
def St.recordInto (s : St) (index : Nat) : Option St := do
  let s ← s.createDescriptorSet index
  let k ← s.slot index
  return s.emit [.bind (← s.pipelines[k]?) s.layout (← s.sets[index]?)]

/-- The passes that run a program. -/
inductive Kind where
  | compute | quad | mesh
deriving DecidableEq, Repr

/-- `RenderQuadHolder::resetRenderPass` (86-94), `RenderMeshHolder::resetRenderPass` (90-98). -/
def St.resetRenderPass (s : St) (renderPass index : Nat) : Option St := do
  let s ← s.resetPipeline 0 index
  St.createIfNone { s with renderPass } index

/-- What happens when a pass needs its GPU objects for an index: `ComputePass::doInitialise` (ComputePass.cpp:65-70),
or, in the quad and mesh passes, what `doRecordInto` does when the holder made a new render pass (RenderQuad.cpp:52-58
with RenderQuadHolder.cpp:66-84; RenderMesh.cpp:52-59 with RenderMeshHolder.cpp:66-88). -/
def St.prepare (s : St) (k : Kind) (index : Nat) : Option St :=
  match k with
  | .compute => s.initialise.createPipeline index 0
  | .quad =>
    let rp := s.next
    let s := { s with next := s.next + 1 }
    if s.vertexBuffer = false then
      St.createIfNone { s.initialise with vertexBuffer := true, renderPass := rp } index
    else (if s.renderPass ≠ rp then s.resetRenderPass rp index else some s).bind fun s => s.createIfNone index
  | .mesh =>
    let rp := s.next
    let s := { s with next := s.next + 1 }
    let s := s.cleanup.initialise
    if s.renderPass = 0 then St.createIfNone { s with renderPass := rp } index
    else (if s.renderPass ≠ rp then s.resetRenderPass rp index else some s).bind fun s => s.createIfNone index

/-- What the user and the graph do with a pass. -/
inductive Op where
  /-- the pass is recorded for an index; `fresh`: it has to prepare its objects first (compute: the pass was not
  initialised for that index, RunnablePass.cpp:309-325; quad and mesh: `RenderPassHolder::initialise` answered true) -/
  | record (index : Nat) (fresh : Bool)
  /-- `resetPipeline( config, index )` of the pass, without the re-recording (a separate `record`) -/
  | reset (program index : Nat)
  /-- `RunnableGraph::run` empties the deletion queue -/
  | run
  /-- destruction of the pass -/
  | finish
deriving DecidableEq, Repr

/-- One operation. -/
def exec (k : Kind) (s : St) : Op → Option St
  | .record i fresh =>
    (if fresh then s.prepare k i else some s).bind fun s =>
    -- RenderQuadHolder::record 111-112, RenderMeshHolder::record 115-116; ComputePass::doRecordInto 88
    (if k = .compute then some s else s.createIfNone i).bind fun s => s.recordInto i
  | .reset prog i => (s.resetPipeline prog i).bind fun s =>
    -- ComputePass.cpp:55-56; RenderQuadHolder.cpp:96-105; RenderMeshHolder.cpp:100-109
    if k = .compute then s.createPipeline i 0
    else if s.renderPass ≠ 0 then s.createIfNone i else some s
  | .run => some { s with queue := [], evs := s.evs ++ s.queue.map .destroyPipe }
  | .finish => some s.cleanup

/-- A sequence of operations. -/
def execAll (k : Kind) (s : St) : List Op → Option St
  | [] => some s
  | o :: os => (exec k s o).bind fun s => execAll k s os

end Verif.Pipe
