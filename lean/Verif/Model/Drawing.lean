import Verif.Model.Pipeline
import Verif.Model.RenderPass
/-
Model of a quad or mesh pass as a whole: its render pass objects (Model/RenderPass.lean) together with its pipelines
(Model/Pipeline.lean).
Modelled code: /repo/source/RenderGraph/RunnablePasses/RenderQuad.cpp 40-65 and RenderMesh.cpp 40-66 (`resetPipeline`,
`doRecordInto`), the states a pipeline is created with: RenderQuadHolder.cpp 153-163, 195-216 and RenderMeshHolder.cpp
170-180, 213-234 (`doPreparePipelineStates`, `doCreateViewportState`).
As in Model/Pipeline.lean handles are never answered twice by the device (so `m_renderPass != renderPass` is true of
every new render pass), and the handle of a new render pass is the next one when the recording starts.
-/
namespace Verif.Draw
open Verif.Rec Verif.Att Verif.Run

/-- A render pass the holder created: the pass index it is for, its handle, what it was created from. -/
structure Made where
  index : Nat
  handle : Nat
  obj : RPass.PassObj

/-- A drawing pass: `m_renderQuad`/`m_renderMesh` and `m_renderPass`. -/
structure St where
  pipe : Pipe.St
  /-- The render passes created so far, the last one first. `RenderPassHolder::m_passes[index]` holds the last one made
  for the index, the older ones were destroyed when it was made (RenderPassHolder.cpp:178). -/
  made : List Made

/-- `m_passes[index]`, RenderPassHolder.hpp:94. -/
def St.current (D : St) (index : Nat) : Option Made := D.made.find? fun m => m.index == index

/-- What a render pass handle stands, or stood, for. -/
def St.object (D : St) (handle : Nat) : Option RPass.PassObj := (D.made.find? fun m => m.handle == handle).map (·.obj)

/-- What happens to a drawing pass. -/
inductive Op where
  /-- the graph records the pass for an index, with its own state and the context of the recording -/
  | record (G : GraphSt) (c : Ctx) (index : Nat)
  /-- `resetPipeline( config, index )` without the re-recording -/
  | reset (program index : Nat)
  | run
  | finish

/-- `doRecordInto`, RenderQuad.cpp:49-65, RenderMesh.cpp:49-66; `resetPipeline`, RenderQuad.cpp:40-47,
RenderMesh.cpp:40-47. `width`, `height`: the configured render size. -/
def exec (k : Pipe.Kind) (sepDS : Bool) (width height : Nat) (p : RunPass) (D : St) : Op → Option St
  | .record G c i =>
    (RPass.initialise sepDS G width height p i ((D.current i).map (·.obj)) c).bind fun r =>
    (Pipe.exec k D.pipe (.record i r.2.1)).map fun s =>
      ⟨s, if r.2.1 then ⟨i, D.pipe.next, r.1⟩ :: D.made else D.made⟩
  | .reset prog i => (Pipe.exec k D.pipe (.reset prog i)).map fun s => { D with pipe := s }
  | .run => (Pipe.exec k D.pipe .run).map fun s => { D with pipe := s }
  | .finish => (Pipe.exec k D.pipe .finish).map fun s => { D with pipe := s }

def execAll (k : Pipe.Kind) (sepDS : Bool) (width height : Nat) (p : RunPass) (D : St) : List Op → Option St
  | [] => some D
  | o :: os => (exec k sepDS width height p D o).bind fun D => execAll k sepDS width height p D os

/-- A new pass. -/
def St.new (p : RunPass) (buffers : List Attachment) (programs : List Nat) (creator : Option (Nat × (Nat → Nat)))
    (maxPassCount : Nat) : St :=
  ⟨Pipe.St.new p.images buffers programs creator maxPassCount, []⟩

/-- The states a pipeline is created with: viewport and scissor, and blend states. -/
structure States where
  x : Nat
  y : Nat
  width : Nat
  height : Nat
  blends : List Nat
deriving DecidableEq, Repr

/-- `doPreparePipelineStates` and `doCreateViewportState`, RenderQuadHolder.cpp:153-163, 195-216, RenderMeshHolder.cpp:
170-180, 213-234: the viewport starts at the configured position and has the size `RenderPassHolder::getRenderSize` answers
(RenderPassHolder.hpp:50-53), which is the configured one (`width`, `height`; 0 if none was, RenderQuad.cpp:36,
RenderMeshHolder.cpp:35), not the render area; the blend states are those of the render pass made last
(`createBlendState`, RenderPassHolder.cpp:337-347), remembered with its handle. Positions below 0 are not modelled. -/
def prepareStates (position : Nat × Nat) (width height : Nat) (o : RPass.PassObj) : States :=
  ⟨position.1, position.2, width, height, o.blends⟩

/-- The states a pipeline created with a render pass handle has. -/
def St.states (D : St) (position : Nat × Nat) (width height : Nat) (renderPass : Nat) : Option States :=
  (D.object renderPass).map (prepareStates position width height)

end Verif.Draw
