/-
Model of the drawing commands quad and mesh passes record.
Modelled code: /repo/source/RenderGraph/RunnablePasses/RenderQuadHolder.cpp 107-139 (`record`, `end`), 141-151
(`getPassIndex`, `isEnabled`), RenderMeshHolder.cpp 111-158 (`record`, `end`), the topologies: RenderQuadHolder.cpp 38-42,
RenderMeshHolder.cpp 36-40, and `Buffer::buffer`, /repo/include/RenderGraph/FrameGraphPrerequisites.hpp 220-225.
What binds the pipeline and its descriptors is Model/Pipeline.lean; the render pass is Model/RenderPass.lean. Handles are
numbers, 0 is `VK_NULL_HANDLE`.
-/
namespace Verif.DrawCmd

/-- A drawing command, `vkCmd…`. -/
inductive Cmd where
  | bindVertex (buffer offset : Nat)
  | bindIndex (buffer offset type : Nat)
  | draw (vertices instances firstVertex firstInstance : Nat)
  | drawIndexed (indices instances firstIndex vertexOffset firstInstance : Nat)
  | drawIndirect (buffer offset count stride : Nat)
  | drawIndexedIndirect (buffer offset count stride : Nat)
  /-- anything else (a callback's own commands) -/
  | other (n : Nat)
deriving DecidableEq, Repr

/-- `Buffer::buffer( index )`, FrameGraphPrerequisites.hpp:220-225; `none` is an access out of range. -/
def bufferAt (buffers : List Nat) (index : Nat) : Option Nat :=
  if buffers.length = 1 then buffers.head? else buffers[index]?

/-- `IndirectBuffer`, FrameGraphPrerequisites.hpp:319-333. -/
structure Indirect where
  buffers : List Nat := [0]
  offset : Nat := 0
  stride : Nat := 0

/-- What `rq::Config` says about drawing. -/
structure Quad where
  /-- `passIndex`, a pointer -/
  passIndex : Option Nat := none
  /-- `enabled`, a pointer -/
  enabled : Option Bool := none
  /-- `isEnabled` -/
  isEnabled : Option Bool := none
  recordInto : Nat → List Cmd := fun _ => []
  instances : Nat := 1
  indirect : Indirect := {}

/-- `RenderQuadHolder::record` after the pipeline is bound, RenderQuadHolder.cpp:112-131. `vertex`: the quad vertex
buffer. -/
def recordQuad (q : Quad) (vertex : List Nat) (index : Nat) : Option (List Cmd) :=
  (bufferAt vertex index).bind fun vb => (bufferAt q.indirect.buffers index).map fun ib =>
    q.recordInto index
      ++ (if vb ≠ 0 then [Cmd.bindVertex vb 0] else [])
      ++ (if ib ≠ 0 then [Cmd.drawIndirect ib q.indirect.offset 1 q.indirect.stride] else [Cmd.draw 3 q.instances 0 0])

/-- `RenderQuadHolder::getPassIndex`, 141-146; the pointer is read at each recording. -/
def Quad.index (q : Quad) : Nat := q.passIndex.getD 0

/-- `RenderQuadHolder::isEnabled`, 148-153. -/
def Quad.isOn (q : Quad) : Bool :=
  match q.isEnabled with
  | some b => b
  | none => q.enabled.getD true

/-- What `rm::Config` says about drawing, callbacks evaluated when the pass records; defaults RenderMeshConfig.hpp:
257-307. -/
structure Mesh where
  recordInto : Nat → List Cmd := fun _ => []
  vertex : List Nat := [0]
  indices : List Nat := [0]
  indirect : Indirect := {}
  primitiveCount : Nat := 1
  vertexCount : Nat := 1
  /-- `VK_INDEX_TYPE_UINT32` = 1 -/
  indexType : Nat := 1

/-- `RenderMeshHolder::record` after the pipeline is bound, RenderMeshHolder.cpp:116-149. -/
def recordMesh (m : Mesh) (index : Nat) : Option (List Cmd) :=
  (bufferAt m.vertex index).bind fun vb => (bufferAt m.indirect.buffers index).bind fun db =>
  (bufferAt m.indices index).map fun ib =>
    m.recordInto index
      ++ (if vb ≠ 0 then [Cmd.bindVertex vb 0] else [])
      ++ (if db ≠ 0 then
            if ib ≠ 0 then [Cmd.bindIndex ib 0 m.indexType, Cmd.drawIndexedIndirect db m.indirect.offset 1 m.indirect.stride]
            else [Cmd.drawIndirect db m.indirect.offset 1 m.indirect.stride]
          else if ib ≠ 0 then [Cmd.bindIndex ib 0 m.indexType, Cmd.drawIndexed m.primitiveCount 1 0 0 0]
          else [Cmd.draw m.vertexCount 1 0 0])

/-- `VkPrimitiveTopology`. -/
inductive Topology where
  | triangleList
  | triangleStrip
deriving DecidableEq, Repr

/-- `m_iaState`, RenderQuadHolder.cpp:38-42. -/
def quadTopology : Topology := .triangleStrip
/-- `m_iaState`, RenderMeshHolder.cpp:36-40. -/
def meshTopology : Topology := .triangleList

end Verif.DrawCmd
