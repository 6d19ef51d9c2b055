import Verif.Model.DrawCommands
import Verif.Model.Pipeline
import Verif.Model.Context
/-
Model of how the passes that run a program are configured: the setters of `pp::Config`, `rq::Config`, `rm::Config`,
`cp::Config` and of `RenderQuadBuilder`, the values kept when the pass is constructed, and what the pass then asks of
the device.
Modelled code (under /repo/include/RenderGraph/RunnablePasses and /repo/source/RenderGraph/RunnablePasses):
PipelineConfig.hpp 130-214, RenderQuadConfig.hpp 14-198, RenderMeshConfig.hpp 32-249, ComputePass.hpp 18-255,
PipelineHolder.cpp 14-40 and 343-366, RenderQuadHolder.cpp 13-64, 139-216, RenderMeshHolder.cpp 11-64, 155-234,
ComputePass.cpp 14-104, PipelineHolder.hpp 96-139 and RenderQuad.hpp 45-159 (the builders).
Simplifications: a callback or a pointed-to variable is a function of the moment it is read (a `Nat` that the pass gives
to nothing else); a pointer is `none` when null; shader programs, layouts, push constant ranges, depth and stencil states
and blend states are opaque numbers; a callback is never an empty `std::function`; `cp::Config::pushConstants` for an
array is left out (it does not compile when used). Texture coordinates and the quad's vertices are Model/Resources.lean.
-/
namespace Verif.Cfg
open Verif.DrawCmd (Indirect Cmd Topology)

/-- A callback, or what a pointer designates, read at some moment. -/
abbrev Read (α : Type) := Nat → α

/-- `ProgramCreator`, PipelineConfig.hpp:13-17; an unset `create` is no creator. -/
abbrev Creator := Nat × (Nat → Nat)

/-- `pp::ConfigT< std::optional >`, PipelineConfig.hpp:208-211. The inner `Option` of the creator: `create` is set. -/
structure Base where
  programs : Option (List Nat) := none
  creator : Option (Option Creator) := none
  layouts : Option (List Nat) := none
  pushConstants : Option (List Nat) := none

/-- PipelineConfig.hpp:148-152 -/
def Base.program (p : Nat) (b : Base) : Base := { b with programs := some [p] }
/-- PipelineConfig.hpp:157-161 -/
def Base.setPrograms (ps : List Nat) (b : Base) : Base := { b with programs := some ps }
/-- PipelineConfig.hpp:166-170 -/
def Base.programCreator (c : Option Creator) (b : Base) : Base := { b with creator := some c }
/-- PipelineConfig.hpp:175-179 -/
def Base.layout (l : Nat) (b : Base) : Base := { b with layouts := some [l] }
/-- PipelineConfig.hpp:184-188 -/
def Base.setLayouts (ls : List Nat) (b : Base) : Base := { b with layouts := some ls }
/-- PipelineConfig.hpp:193-197 -/
def Base.pushConstant (r : Nat) (b : Base) : Base := { b with pushConstants := some [r] }
/-- PipelineConfig.hpp:202-206 -/
def Base.setPushConstants (rs : List Nat) (b : Base) : Base := { b with pushConstants := some rs }

/-- A call to `pp::Config`. -/
inductive BaseCall where
  | program (p : Nat)
  | programs (ps : List Nat)
  | programCreator (c : Option Creator)
  | layout (l : Nat)
  | layouts (ls : List Nat)
  | pushConstant (r : Nat)
  | pushConstants (rs : List Nat)

/-- PipelineConfig.hpp:148-206. -/
def BaseCall.apply : BaseCall → Base → Base
  | .program p => Base.program p
  | .programs ps => Base.setPrograms ps
  | .programCreator c => Base.programCreator c
  | .layout l => Base.layout l
  | .layouts ls => Base.setLayouts ls
  | .pushConstant r => Base.pushConstant r
  | .pushConstants rs => Base.setPushConstants rs

/-- A `pp::Config` after calls, in order. -/
def baseConfig (calls : List BaseCall) : Base := calls.foldl (fun b c => c.apply b) {}

/-- `PipelineHolder`'s constructor, PipelineHolder.cpp:23-39, on the model of Model/Pipeline.lean. -/
def Base.holder (b : Base) (images buffers : List Att.Attachment) (maxPassCount : Nat) : Pipe.St :=
  Pipe.St.new images buffers (b.programs.getD []) (b.creator.getD none) maxPassCount

/-- `VkPipelineLayoutCreateInfo`: the set layouts and the push constant ranges, `doCreatePipelineLayout`,
PipelineHolder.cpp:343-358. -/
def Base.pipelineLayout (b : Base) (ownSetLayout : Nat) : List Nat × List Nat :=
  ([ownSetLayout] ++ b.layouts.getD [], b.pushConstants.getD [])

/-- What a pass asks of `vkCreateGraphicsPipelines` besides its program, layout and render pass, which are
Model/Pipeline.lean. -/
structure PipeInfo where
  /-- `VkViewport`: x, y, width, height -/
  viewport : Int × Int × Nat × Nat
  /-- `VkRect2D`: x, y, width, height -/
  scissor : Int × Int × Nat × Nat
  topology : Topology
  cullMode : Nat
  depthStencil : Nat
  blend : Nat
deriving DecidableEq, Repr

/-! ## Quads -/

/-- `rq::ConfigT< std::optional >`, RenderQuadConfig.hpp:171-182; a callback's commands are given by the index. -/
structure QuadConfig where
  base : Base := {}
  position : Option (Int × Int) := none
  depthStencil : Option Nat := none
  passIndex : Option (Option (Read Nat)) := none
  enabled : Option (Option (Read Bool)) := none
  isEnabled : Option (Read Bool) := none
  recordInto : Option (Nat → List Cmd) := none
  finish : Option (Nat → List Cmd) := none
  instances : Option Nat := none
  size : Option (Nat × Nat) := none
  indirect : Option Indirect := none

/-- A call to `rq::Config`. -/
inductive QuadCall where
  | program (p : Nat)
  | programs (ps : List Nat)
  | programCreator (c : Option Creator)
  | layout (l : Nat)
  | layouts (ls : List Nat)
  | baseConfig (b : Base)
  | renderSize (w h : Nat)
  | renderPosition (x y : Int)
  | depthStencilState (d : Nat)
  | passIndex (p : Option (Read Nat))
  | enabled (p : Option (Read Bool))
  | isEnabled (f : Read Bool)
  | recordInto (r : Nat → List Cmd)
  | finish (r : Nat → List Cmd)
  | instances (n : Nat)
  | indirectBuffer (b : Indirect)

/-- RenderQuadConfig.hpp:21-169. -/
def QuadCall.apply (call : QuadCall) (c : QuadConfig) : QuadConfig :=
  match call with
  | .program p => { c with base := c.base.program p }
  | .programs ps => { c with base := c.base.setPrograms ps }
  | .programCreator k => { c with base := c.base.programCreator k }
  | .layout l => { c with base := c.base.layout l }
  | .layouts ls => { c with base := c.base.setLayouts ls }
  | .baseConfig b => { c with base := b }
  | .renderSize w h => { c with size := some (w, h) }
  | .renderPosition x y => { c with position := some (x, y) }
  | .depthStencilState d => { c with depthStencil := some d }
  | .passIndex p => { c with passIndex := some p }
  | .enabled p => { c with enabled := some p }
  | .isEnabled f => { c with isEnabled := some f }
  | .recordInto r => { c with recordInto := some r }
  | .finish r => { c with finish := some r }
  | .instances n => { c with instances := some n }
  | .indirectBuffer b => { c with indirect := some b }

/-- An `rq::Config` after calls, in order. -/
def quadConfig (calls : List QuadCall) : QuadConfig := calls.foldl (fun c k => k.apply c) {}

/-- `RenderQuadHolder`'s `m_config`, `rq::ConfigT< RawTypeT >`. -/
structure QuadData where
  position : Int × Int
  depthStencil : Nat
  passIndex : Option (Read Nat)
  enabled : Option (Read Bool)
  isEnabled : Option (Read Bool)
  recordInto : Nat → List Cmd
  finish : Nat → List Cmd
  instances : Nat
  indirect : Indirect

/-- The constructor, RenderQuadHolder.cpp:13-35. The depth and stencil state 0 is the default one, all tests off
(PipelineConfig.hpp:75-94). -/
def QuadConfig.data (c : QuadConfig) : QuadData where
  position := match c.position with | some p => p | none => (0, 0)
  depthStencil := match c.depthStencil with | some d => d | none => 0
  passIndex := match c.passIndex with | some p => p | none => none
  enabled := match c.enabled with | some p => p | none => none
  isEnabled := c.isEnabled
  recordInto := match c.recordInto with | some r => r | none => fun _ => []
  finish := match c.finish with | some r => r | none => fun _ => []
  instances := match c.instances with | some n => n | none => 1
  indirect := match c.indirect with | some b => b | none => {}

/-- The size given to the render pass, RenderQuad.cpp:35-36. -/
def QuadConfig.renderSize (c : QuadConfig) : Nat × Nat := match c.size with | some s => s | none => (0, 0)

/-- What Model/DrawCommands.lean records from, at the moment `t`. -/
def QuadData.draw (d : QuadData) (t : Nat) : DrawCmd.Quad where
  passIndex := d.passIndex.map (· t)
  enabled := d.enabled.map (· t)
  isEnabled := d.isEnabled.map (· t)
  recordInto := d.recordInto
  instances := d.instances
  indirect := d.indirect

/-- The states of a quad's pipeline, RenderQuadHolder.cpp:37-64, 153-163, 195-216: `size` is what the render pass
answers (`getRenderSize`). `VK_CULL_MODE_NONE` = 0. -/
def QuadData.pipeInfo (d : QuadData) (size : Nat × Nat) (blend : Nat) : PipeInfo where
  viewport := (d.position.1, d.position.2, size.1, size.2)
  scissor := (d.position.1, d.position.2, size.1, size.2)
  topology := DrawCmd.quadTopology
  cullMode := 0
  depthStencil := d.depthStencil
  blend := blend

/-- `RenderQuad::doRecordInto` after the render pass is begun and the pipeline bound, RenderQuad.cpp:62-65:
`none` is the end of the render pass. -/
def QuadData.commands (d : QuadData) (t : Nat) (vertex : List Nat) (index : Nat) : Option (List (Option Cmd)) :=
  (DrawCmd.recordQuad (d.draw t) vertex index).map fun cs => cs.map some ++ [none] ++ (d.finish index).map some

/-! ## Meshes -/

/-- `rm::ConfigT< std::optional >`, RenderMeshConfig.hpp:216-230. -/
structure MeshConfig where
  base : Base := {}
  position : Option (Int × Int) := none
  depthStencil : Option Nat := none
  getPassIndex : Option (Read Nat) := none
  isEnabled : Option (Read Bool) := none
  recordInto : Option (Nat → List Cmd) := none
  finish : Option (Nat → List Cmd) := none
  getPrimitiveCount : Option (Read Nat) := none
  getVertexCount : Option (Read Nat) := none
  getIndexType : Option (Read Nat) := none
  getCullMode : Option (Read Nat) := none
  size : Option (Nat × Nat) := none
  vertex : Option (List Nat) := none
  indices : Option (List Nat) := none
  indirect : Option Indirect := none

/-- A call to `rm::Config`. -/
inductive MeshCall where
  | program (p : Nat)
  | programs (ps : List Nat)
  | programCreator (c : Option Creator)
  | layout (l : Nat)
  | layouts (ls : List Nat)
  | baseConfig (b : Base)
  | renderSize (w h : Nat)
  | renderPosition (x y : Int)
  | depthStencilState (d : Nat)
  | getPassIndex (p : Read Nat)
  | isEnabled (f : Read Bool)
  | recordInto (r : Nat → List Cmd)
  | finish (r : Nat → List Cmd)
  | vertexBuffer (b : List Nat)
  | indexBuffer (b : List Nat)
  | indirectBuffer (b : Indirect)
  | getPrimitiveCount (f : Read Nat)
  | getVertexCount (f : Read Nat)
  | getIndexType (f : Read Nat)
  | getCullMode (f : Read Nat)

/-- RenderMeshConfig.hpp:39-214. -/
def MeshCall.apply (call : MeshCall) (c : MeshConfig) : MeshConfig :=
  match call with
  | .program p => { c with base := c.base.program p }
  | .programs ps => { c with base := c.base.setPrograms ps }
  | .programCreator k => { c with base := c.base.programCreator k }
  | .layout l => { c with base := c.base.layout l }
  | .layouts ls => { c with base := c.base.setLayouts ls }
  | .baseConfig b => { c with base := b }
  | .renderSize w h => { c with size := some (w, h) }
  | .renderPosition x y => { c with position := some (x, y) }
  | .depthStencilState d => { c with depthStencil := some d }
  | .getPassIndex p => { c with getPassIndex := some p }
  | .isEnabled f => { c with isEnabled := some f }
  | .recordInto r => { c with recordInto := some r }
  | .finish r => { c with finish := some r }
  | .vertexBuffer b => { c with vertex := some b }
  | .indexBuffer b => { c with indices := some b }
  | .indirectBuffer b => { c with indirect := some b }
  | .getPrimitiveCount f => { c with getPrimitiveCount := some f }
  | .getVertexCount f => { c with getVertexCount := some f }
  | .getIndexType f => { c with getIndexType := some f }
  | .getCullMode f => { c with getCullMode := some f }

/-- An `rm::Config` after calls, in order. -/
def meshConfig (calls : List MeshCall) : MeshConfig := calls.foldl (fun c k => k.apply c) {}

/-- `RenderMeshHolder`'s `m_config` and the cull mode of `m_rsState`. -/
structure MeshData where
  position : Int × Int
  depthStencil : Nat
  getPassIndex : Read Nat
  isEnabled : Read Bool
  recordInto : Nat → List Cmd
  finish : Nat → List Cmd
  getPrimitiveCount : Read Nat
  getVertexCount : Read Nat
  getIndexType : Read Nat
  cullMode : Nat
  vertex : List Nat
  indices : List Nat
  indirect : Indirect

/-- The constructor at the moment `t`, RenderMeshHolder.cpp:11-64; defaults RenderMeshConfig.hpp:256-312,
RunnablePass.hpp:380-407. `VK_INDEX_TYPE_UINT32` = 1, `VK_CULL_MODE_NONE` = 0. The cull mode is asked here, once
(line 57). -/
def MeshConfig.data (c : MeshConfig) (t : Nat) : MeshData where
  position := match c.position with | some p => p | none => (0, 0)
  depthStencil := match c.depthStencil with | some d => d | none => 0
  getPassIndex := match c.getPassIndex with | some p => p | none => fun _ => 0
  isEnabled := match c.isEnabled with | some p => p | none => fun _ => true
  recordInto := match c.recordInto with | some r => r | none => fun _ => []
  finish := match c.finish with | some r => r | none => fun _ => []
  getPrimitiveCount := match c.getPrimitiveCount with | some f => f | none => fun _ => 1
  getVertexCount := match c.getVertexCount with | some f => f | none => fun _ => 1
  getIndexType := match c.getIndexType with | some f => f | none => fun _ => 1
  cullMode := (match c.getCullMode with | some f => f | none => fun _ => 0) t
  vertex := match c.vertex with | some b => b | none => [0]
  indices := match c.indices with | some b => b | none => [0]
  indirect := match c.indirect with | some b => b | none => {}

/-- The size given to the render pass, RenderMeshHolder.cpp:35, RenderMesh.cpp:36. -/
def MeshConfig.renderSize (c : MeshConfig) : Nat × Nat := match c.size with | some s => s | none => (0, 0)

/-- What Model/DrawCommands.lean records from, at the moment `t`, RenderMeshHolder.cpp:111-149. -/
def MeshData.draw (d : MeshData) (t : Nat) : DrawCmd.Mesh where
  recordInto := d.recordInto
  vertex := d.vertex
  indices := d.indices
  indirect := d.indirect
  primitiveCount := d.getPrimitiveCount t
  vertexCount := d.getVertexCount t
  indexType := d.getIndexType t

/-- The states of a mesh's pipeline, RenderMeshHolder.cpp:37-63, 170-180, 213-234. -/
def MeshData.pipeInfo (d : MeshData) (size : Nat × Nat) (blend : Nat) : PipeInfo where
  viewport := (d.position.1, d.position.2, size.1, size.2)
  scissor := (d.position.1, d.position.2, size.1, size.2)
  topology := DrawCmd.meshTopology
  cullMode := d.cullMode
  depthStencil := d.depthStencil
  blend := blend

/-- `RenderMesh::doRecordInto` after the render pass is begun and the pipeline bound; `none` is the end of the render
pass. -/
def MeshData.commands (d : MeshData) (t : Nat) (index : Nat) : Option (List (Option Cmd)) :=
  (DrawCmd.recordMesh (d.draw t) index).map fun cs => cs.map some ++ [none] ++ (d.finish index).map some

/-- RenderMeshHolder.cpp:155-158 -/
def MeshData.index (d : MeshData) (t : Nat) : Nat := d.getPassIndex t
/-- RenderMeshHolder.cpp:160-163 -/
def MeshData.isOn (d : MeshData) (t : Nat) : Bool := d.isEnabled t

/-! ## Compute passes -/

/-- `cp::ConfigT< std::optional >`, ComputePass.hpp:223-236. The pass index answers `none` when it reads a null
pointer. -/
structure ComputeConfig where
  base : Base := {}
  /-- the callback's name -/
  initialise : Option Nat := none
  enabled : Option (Option (Read Bool)) := none
  isEnabled : Option (Read Bool) := none
  getPassIndex : Option (Read (Option Nat)) := none
  recordInto : Option (Nat → List Cmd) := none
  finish : Option (Nat → List Cmd) := none
  countX : Option Nat := none
  countY : Option Nat := none
  countZ : Option Nat := none
  getX : Option (Read Nat) := none
  getY : Option (Read Nat) := none
  getZ : Option (Read Nat) := none
  indirect : Option Indirect := none

/-- A call to `cp::Config`. -/
inductive ComputeCall where
  | program (p : Nat)
  | programs (ps : List Nat)
  | programCreator (c : Option Creator)
  | layout (l : Nat)
  | layouts (ls : List Nat)
  | pushConstant (r : Nat)
  | baseConfig (b : Base)
  | passIndex (p : Option (Read Nat))
  | enabled (p : Option (Read Bool))
  | getPassIndex (p : Read Nat)
  | isEnabled (f : Read Bool)
  | recordInto (r : Nat → List Cmd)
  | initialise (callback : Nat)
  | finish (r : Nat → List Cmd)
  | groupCountX (n : Nat)
  | groupCountY (n : Nat)
  | groupCountZ (n : Nat)
  | getGroupCountX (f : Read Nat)
  | getGroupCountY (f : Read Nat)
  | getGroupCountZ (f : Read Nat)
  | indirectBuffer (b : Indirect)

/-- ComputePass.hpp:25-212: `passIndex` and `getPassIndex` write the same member. -/
def ComputeCall.apply (call : ComputeCall) (c : ComputeConfig) : ComputeConfig :=
  match call with
  | .program p => { c with base := c.base.program p }
  | .programs ps => { c with base := c.base.setPrograms ps }
  | .programCreator k => { c with base := c.base.programCreator k }
  | .layout l => { c with base := c.base.layout l }
  | .layouts ls => { c with base := c.base.setLayouts ls }
  | .pushConstant r => { c with base := c.base.pushConstant r }
  | .baseConfig b => { c with base := b }
  | .passIndex p => { c with getPassIndex := some fun t => p.map (· t) }
  | .enabled p => { c with enabled := some p }
  | .getPassIndex p => { c with getPassIndex := some fun t => some (p t) }
  | .isEnabled f => { c with isEnabled := some f }
  | .recordInto r => { c with recordInto := some r }
  | .initialise r => { c with initialise := some r }
  | .finish r => { c with finish := some r }
  | .groupCountX n => { c with countX := some n }
  | .groupCountY n => { c with countY := some n }
  | .groupCountZ n => { c with countZ := some n }
  | .getGroupCountX f => { c with getX := some f }
  | .getGroupCountY f => { c with getY := some f }
  | .getGroupCountZ f => { c with getZ := some f }
  | .indirectBuffer b => { c with indirect := some b }

/-- A `cp::Config` after calls, in order. -/
def computeConfig (calls : List ComputeCall) : ComputeConfig := calls.foldl (fun c k => k.apply c) {}

/-- `ComputePass::doIsEnabled`, ComputePass.cpp:77-82, with the values the constructor keeps (30-31). -/
def ComputeConfig.isOn (c : ComputeConfig) (t : Nat) : Bool :=
  match c.isEnabled with
  | some f => f t
  | none => match c.enabled with
    | some (some p) => p t
    | _ => true

/-- `ComputePass::doGetPassIndex`, ComputePass.cpp:72-75, with the value the constructor keeps (32). -/
def ComputeConfig.index (c : ComputeConfig) (t : Nat) : Option Nat :=
  match c.getPassIndex with
  | some f => f t
  | none => some 0

/-- The user's callbacks `ComputePass::doInitialise` calls, with the index they receive, ComputePass.cpp:65-70 and 29. -/
def ComputeConfig.initialiseCalls (c : ComputeConfig) (index : Nat) : List (Nat × Nat) :=
  match c.initialise with | some f => [(f, index)] | none => []

/-- What a compute pass records. -/
inductive Compute where
  | cmd (c : Cmd)
  | dispatch (d : Ctx.Dispatch)
deriving DecidableEq, Repr

/-- The `recordInto` callback the constructor keeps, ComputePass.cpp:33. -/
def ComputeConfig.before (c : ComputeConfig) : Nat → List Cmd :=
  match c.recordInto with | some r => r | none => fun _ => []
/-- The `end` callback the constructor keeps, ComputePass.cpp:34. -/
def ComputeConfig.after (c : ComputeConfig) : Nat → List Cmd :=
  match c.finish with | some r => r | none => fun _ => []
/-- The indirect buffer the constructor keeps, ComputePass.cpp:41. -/
def ComputeConfig.indirectBuffer (c : ComputeConfig) : Indirect :=
  match c.indirect with | some b => b | none => {}

/-- The dispatch part of the configuration at the moment `t`, as Model/Context.lean takes it. -/
def ComputeConfig.at (c : ComputeConfig) (t index : Nat) : Option Ctx.Config :=
  (DrawCmd.bufferAt c.indirectBuffer.buffers index).map fun ib =>
    { countX := c.countX, countY := c.countY, countZ := c.countZ
      getX := c.getX.map (· t), getY := c.getY.map (· t), getZ := c.getZ.map (· t)
      indirect := some (ib, c.indirectBuffer.offset) }

/-- `ComputePass::doRecordInto` after the pipeline is bound, ComputePass.cpp:88-103. -/
def ComputeConfig.commands (c : ComputeConfig) (t index : Nat) : Option (List Compute) :=
  (c.at t index).map fun d =>
    (c.before index).map .cmd ++ [.dispatch (Ctx.dispatch d)] ++ (c.after index).map .cmd

/-! ## The quad builder -/

/-- A `RenderQuadBuilder`: the pipeline part (PipelineHolder.hpp:138) and the quad part (RenderQuad.hpp:158). -/
structure Builder where
  base : Base := {}
  config : QuadConfig := {}

/-- A call to `RenderQuadBuilder`. -/
inductive BuilderCall where
  | program (p : Nat)
  | programs (ps : List Nat)
  | programCreator (c : Option Creator)
  | pushConstant (r : Nat)
  | renderSize (w h : Nat)
  | renderPosition (x y : Int)
  | depthStencilState (d : Nat)
  | passIndex (p : Option (Read Nat))
  | enabled (p : Option (Read Bool))
  | isEnabled (f : Read Bool)
  | recordInto (r : Nat → List Cmd)
  | instances (n : Nat)

/-- PipelineHolder.hpp:104-135, RenderQuad.hpp:59-135. -/
def BuilderCall.apply (call : BuilderCall) (b : Builder) : Builder :=
  match call with
  | .program p => { b with base := b.base.setPrograms [p] }
  | .programs ps => { b with base := b.base.setPrograms ps }
  | .programCreator k => { b with base := b.base.programCreator k }
  | .pushConstant r => { b with base := b.base.pushConstant r }
  | .renderSize w h => { b with config := (QuadCall.renderSize w h).apply b.config }
  | .renderPosition x y => { b with config := (QuadCall.renderPosition x y).apply b.config }
  | .depthStencilState d => { b with config := (QuadCall.depthStencilState d).apply b.config }
  | .passIndex p => { b with config := (QuadCall.passIndex p).apply b.config }
  | .enabled p => { b with config := (QuadCall.enabled p).apply b.config }
  | .isEnabled f => { b with config := (QuadCall.isEnabled f).apply b.config }
  | .recordInto r => { b with config := (QuadCall.recordInto r).apply b.config }
  | .instances n => { b with config := (QuadCall.instances n).apply b.config }

/-- What is left in a `pp::Config` whose value was moved: an engaged `std::optional` stays engaged, over an emptied
vector or function (as the standard libraries do; the standard only promises a valid state). -/
def Base.moved (b : Base) : Base where
  programs := b.programs.map fun _ => []
  creator := b.creator.map fun _ => none
  layouts := b.layouts.map fun _ => []
  pushConstants := b.pushConstants.map fun _ => []

/-- `build`, RenderQuad.hpp:144-155: the configuration given to the `RenderQuad` and the builder left. -/
def Builder.build (b : Builder) : QuadConfig × Builder :=
  let c := (QuadCall.baseConfig b.base).apply b.config
  (c, { base := b.base.moved, config := c })

/-- A builder after calls, in order. -/
def builder (calls : List BuilderCall) (b : Builder := {}) : Builder := calls.foldl (fun b c => c.apply b) b

end Verif.Cfg
