import Verif.Model.Resources
import Verif.Model.Context
/-
Model of the memory given to images and quad vertex buffers.
Modelled code: /repo/source/RenderGraph/ResourceHandler.cpp 177-232 (`createImage`, the memory), 306-415 (`createQuadTriVertexBuffer`).
Simplifications: object creation itself is Model/Lifetime.lean and Model/Resources.lean; a float is one value at its byte
offset (it takes four bytes); what the driver answers to each call is given.
-/
namespace Verif.Mem

/-- `VkPhysicalDeviceMemoryProperties`: the property flags of the first `memoryTypeCount` memory types. -/
structure Device where
  memoryTypes : List Nat

/-- `VkMemoryRequirements`. -/
structure Requirements where
  size : Nat
  alignment : Nat
  typeBits : Nat

/-- VK_MEMORY_PROPERTY_DEVICE_LOCAL_BIT. -/
def deviceLocal : Nat := 1
/-- VK_MEMORY_PROPERTY_HOST_VISIBLE_BIT. -/
def hostVisible : Nat := 2

/-- `GraphContext::deduceMemoryType`, GraphContext.cpp:247-265 (Model/Context.lean); `none`: it throws. -/
def Device.deduceMemoryType (d : Device) (typeBits requirements : Nat) : Option Nat :=
  Ctx.deduceMemoryType d.memoryTypes typeBits requirements

/-- What the driver is asked to do with the memory. -/
inductive Call where
  /-- `vkAllocateMemory` -/
  | allocate (size memoryType : Nat)
  /-- `vkBindImageMemory`, `vkBindBufferMemory` of what was just created and just allocated -/
  | bind (offset : Nat)
  /-- `vkMapMemory( offset, VK_WHOLE_SIZE )` -/
  | map (offset : Nat)
  /-- the host writes a float through the mapped pointer, that many bytes after it -/
  | write (offset : Nat) (value : Int)
  /-- `vkFlushMappedMemoryRanges( offset, VK_WHOLE_SIZE )` -/
  | flush (offset : Nat)
  | unmap
deriving DecidableEq

/-- What the driver answers: whether each call succeeds, and whether the mapped pointer is not null. -/
structure Answers where
  allocated : Bool
  bound : Bool
  mapped : Bool
  pointer : Bool

/-- What happened: the calls in order, and whether an exception was thrown. -/
structure Outcome where
  calls : List Call
  thrown : Bool

/-- `createImage` once the image exists, ResourceHandler.cpp:200-225. -/
def imageMemory (d : Device) (r : Requirements) (a : Answers) : Outcome :=
  match d.deduceMemoryType r.typeBits deviceLocal with
  | none => ⟨[], true⟩
  | some t =>
    if a.allocated then
      if a.bound then ⟨[.allocate r.size t, .bind 0], false⟩
      else ⟨[.allocate r.size t, .bind 0], true⟩
    else ⟨[.allocate r.size t], true⟩

/-- `sizeof( reshdl::Quad::Vertex )`, ResourceHandler.cpp:27-35: two arrays of two floats. -/
def vertexSize : Nat := 16
/-- `createInfo.size`, ResourceHandler.cpp:321. -/
def quadBufferSize : Nat := 3 * vertexSize

/-- The floats of the vertices in memory, `std::copy`, ResourceHandler.cpp:377-381: `position`, then `texture`. -/
def layoutFrom : Nat → List Res.Vertex → List Call
  | _, [] => []
  | o, v :: vs => .write o v.x :: .write (o + 4) v.y :: .write (o + 8) v.u :: .write (o + 12) v.v ::
    layoutFrom (o + vertexSize) vs

/-- `createQuadTriVertexBuffer` once the buffer exists, ResourceHandler.cpp:333-390. -/
def quadMemory (d : Device) (r : Requirements) (a : Answers) (invertU invertV : Bool) : Outcome :=
  match d.deduceMemoryType r.typeBits hostVisible with
  | none => ⟨[], true⟩
  | some t =>
    if a.allocated then
      if a.bound then
        if a.mapped then
          if a.pointer then
            ⟨[.allocate r.size t, .bind 0, .map 0] ++ layoutFrom 0 (Res.quadVertices invertU invertV) ++ [.flush 0, .unmap], false⟩
          else ⟨[.allocate r.size t, .bind 0, .map 0], false⟩
        else ⟨[.allocate r.size t, .bind 0, .map 0], true⟩
      else ⟨[.allocate r.size t, .bind 0], true⟩
    else ⟨[.allocate r.size t], true⟩

/-- `VkVertexInputAttributeDescription` of binding 0 and format R32G32_SFLOAT. -/
structure Attrib where
  location : Nat
  offset : Nat
deriving DecidableEq

/-- What the pipelines are told of the buffer: `vertexBindings` (one, its stride) and `vertexAttribs`,
ResourceHandler.cpp:392-401; `offsetof( Vertex, position )`, `offsetof( Vertex, texture )`. -/
structure Input where
  stride : Nat
  attribs : List Attrib

/-- ResourceHandler.cpp:392-401. -/
def quadInput (texCoords : Bool) : Input :=
  ⟨vertexSize, [⟨0, 0⟩] ++ (if texCoords then [⟨1, 8⟩] else [])⟩

end Verif.Mem
