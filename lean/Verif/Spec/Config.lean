import Verif.Model.Config
/-
What a user expects of a configuration: of each thing that can be configured, the last call that says something about
it decides, and the documented default holds when no call does.
-/
namespace Verif.Cfg

/-- `v` is what the calls settle about one thing: what the last call that says something about it said, and the default
when none did. `said`: what a call says about it, if anything. -/
def Settled {κ α : Type} (said : κ → Option α) (default : α) (calls : List κ) (v : α) : Prop :=
  (∃ before call after, calls = before ++ call :: after ∧ said call = some v ∧ ∀ c ∈ after, said c = none)
  ∨ ((∀ c ∈ calls, said c = none) ∧ v = default)

/-! ### What each call says -/

namespace BaseCall
def saysPrograms : BaseCall → Option (List Nat)
  | .program p => some [p] | .programs ps => some ps | _ => none
def saysCreator : BaseCall → Option (Option Creator)
  | .programCreator c => some c | _ => none
def saysLayouts : BaseCall → Option (List Nat)
  | .layout l => some [l] | .layouts ls => some ls | _ => none
def saysPushConstants : BaseCall → Option (List Nat)
  | .pushConstant r => some [r] | .pushConstants rs => some rs | _ => none
end BaseCall

/-- A whole pipeline configuration says everything: what it was not told is the default. -/
def Base.saidPrograms (b : Base) : List Nat := b.programs.getD []
def Base.saidCreator (b : Base) : Option Creator := b.creator.getD none
def Base.saidLayouts (b : Base) : List Nat := b.layouts.getD []
def Base.saidPushConstants (b : Base) : List Nat := b.pushConstants.getD []

namespace QuadCall
def saysPrograms : QuadCall → Option (List Nat)
  | .program p => some [p] | .programs ps => some ps | .baseConfig b => some b.saidPrograms | _ => none
def saysCreator : QuadCall → Option (Option Creator)
  | .programCreator c => some c | .baseConfig b => some b.saidCreator | _ => none
def saysLayouts : QuadCall → Option (List Nat)
  | .layout l => some [l] | .layouts ls => some ls | .baseConfig b => some b.saidLayouts | _ => none
def saysPushConstants : QuadCall → Option (List Nat)
  | .baseConfig b => some b.saidPushConstants | _ => none
def saysSize : QuadCall → Option (Nat × Nat) | .renderSize w h => some (w, h) | _ => none
def saysPosition : QuadCall → Option (Int × Int) | .renderPosition x y => some (x, y) | _ => none
def saysDepthStencil : QuadCall → Option Nat | .depthStencilState d => some d | _ => none
def saysPassIndex : QuadCall → Option (Option (Read Nat)) | .passIndex p => some p | _ => none
def saysEnabled : QuadCall → Option (Option (Read Bool)) | .enabled p => some p | _ => none
def saysIsEnabled : QuadCall → Option (Option (Read Bool)) | .isEnabled f => some (some f) | _ => none
def saysRecordInto : QuadCall → Option (Nat → List DrawCmd.Cmd) | .recordInto r => some r | _ => none
def saysEnd : QuadCall → Option (Nat → List DrawCmd.Cmd) | .finish r => some r | _ => none
def saysInstances : QuadCall → Option Nat | .instances n => some n | _ => none
def saysIndirect : QuadCall → Option DrawCmd.Indirect | .indirectBuffer b => some b | _ => none
end QuadCall

namespace MeshCall
def saysPrograms : MeshCall → Option (List Nat)
  | .program p => some [p] | .programs ps => some ps | .baseConfig b => some b.saidPrograms | _ => none
def saysCreator : MeshCall → Option (Option Creator)
  | .programCreator c => some c | .baseConfig b => some b.saidCreator | _ => none
def saysLayouts : MeshCall → Option (List Nat)
  | .layout l => some [l] | .layouts ls => some ls | .baseConfig b => some b.saidLayouts | _ => none
def saysPushConstants : MeshCall → Option (List Nat)
  | .baseConfig b => some b.saidPushConstants | _ => none
def saysSize : MeshCall → Option (Nat × Nat) | .renderSize w h => some (w, h) | _ => none
def saysPosition : MeshCall → Option (Int × Int) | .renderPosition x y => some (x, y) | _ => none
def saysDepthStencil : MeshCall → Option Nat | .depthStencilState d => some d | _ => none
def saysPassIndex : MeshCall → Option (Read Nat) | .getPassIndex p => some p | _ => none
def saysIsEnabled : MeshCall → Option (Read Bool) | .isEnabled f => some f | _ => none
def saysRecordInto : MeshCall → Option (Nat → List DrawCmd.Cmd) | .recordInto r => some r | _ => none
def saysEnd : MeshCall → Option (Nat → List DrawCmd.Cmd) | .finish r => some r | _ => none
def saysVertex : MeshCall → Option (List Nat) | .vertexBuffer b => some b | _ => none
def saysIndices : MeshCall → Option (List Nat) | .indexBuffer b => some b | _ => none
def saysIndirect : MeshCall → Option DrawCmd.Indirect | .indirectBuffer b => some b | _ => none
def saysPrimitiveCount : MeshCall → Option (Read Nat) | .getPrimitiveCount f => some f | _ => none
def saysVertexCount : MeshCall → Option (Read Nat) | .getVertexCount f => some f | _ => none
def saysIndexType : MeshCall → Option (Read Nat) | .getIndexType f => some f | _ => none
def saysCullMode : MeshCall → Option (Read Nat) | .getCullMode f => some f | _ => none
end MeshCall

namespace ComputeCall
def saysPrograms : ComputeCall → Option (List Nat)
  | .program p => some [p] | .programs ps => some ps | .baseConfig b => some b.saidPrograms | _ => none
def saysCreator : ComputeCall → Option (Option Creator)
  | .programCreator c => some c | .baseConfig b => some b.saidCreator | _ => none
def saysLayouts : ComputeCall → Option (List Nat)
  | .layout l => some [l] | .layouts ls => some ls | .baseConfig b => some b.saidLayouts | _ => none
def saysPushConstants : ComputeCall → Option (List Nat)
  | .pushConstant r => some [r] | .baseConfig b => some b.saidPushConstants | _ => none
/-- the index is a variable, which must not be null, or a callback -/
def saysPassIndex : ComputeCall → Option (Read (Option Nat))
  | .passIndex (some p) => some fun t => some (p t)
  | .passIndex none => some fun _ => none
  | .getPassIndex p => some fun t => some (p t)
  | _ => none
def saysEnabled : ComputeCall → Option (Option (Read Bool)) | .enabled p => some p | _ => none
def saysIsEnabled : ComputeCall → Option (Option (Read Bool)) | .isEnabled f => some (some f) | _ => none
def saysInitialise : ComputeCall → Option (Option Nat) | .initialise f => some (some f) | _ => none
def saysRecordInto : ComputeCall → Option (Nat → List DrawCmd.Cmd) | .recordInto r => some r | _ => none
def saysEnd : ComputeCall → Option (Nat → List DrawCmd.Cmd) | .finish r => some r | _ => none
def saysCountX : ComputeCall → Option Nat | .groupCountX n => some n | _ => none
def saysCountY : ComputeCall → Option Nat | .groupCountY n => some n | _ => none
def saysCountZ : ComputeCall → Option Nat | .groupCountZ n => some n | _ => none
def saysGetX : ComputeCall → Option (Option (Read Nat)) | .getGroupCountX f => some (some f) | _ => none
def saysGetY : ComputeCall → Option (Option (Read Nat)) | .getGroupCountY f => some (some f) | _ => none
def saysGetZ : ComputeCall → Option (Option (Read Nat)) | .getGroupCountZ f => some (some f) | _ => none
def saysIndirect : ComputeCall → Option DrawCmd.Indirect | .indirectBuffer b => some b | _ => none
end ComputeCall

/-- What the calls to the builder say, as calls to the configuration. -/
def BuilderCall.saysQuad : BuilderCall → Option QuadCall
  | .renderSize w h => some (.renderSize w h)
  | .renderPosition x y => some (.renderPosition x y)
  | .depthStencilState d => some (.depthStencilState d)
  | .passIndex p => some (.passIndex p)
  | .enabled p => some (.enabled p)
  | .isEnabled f => some (.isEnabled f)
  | .recordInto r => some (.recordInto r)
  | .instances n => some (.instances n)
  | _ => none

def BuilderCall.saysBase : BuilderCall → Option BaseCall
  | .program p => some (.program p)
  | .programs ps => some (.programs ps)
  | .programCreator c => some (.programCreator c)
  | .pushConstant r => some (.pushConstant r)
  | _ => none

/-- Whether a pass is enabled, from its callback and its variable: the callback decides if there is one. -/
def on (callback var : Option (Read Bool)) (t : Nat) : Bool :=
  match callback, var with
  | some f, _ => f t
  | none, some p => p t
  | none, none => true

/-- The program of the index `i`, from the configured programs and creator: a creator answers for the indices below its
count; otherwise a single program serves every index. -/
def programOf (programs : List Nat) (creator : Option Creator) (i : Nat) : Option Nat :=
  match creator with
  | some (n, create) => if i < n then some (create i) else none
  | none => if programs.length = 1 then programs.head? else programs[i]?

/-- The buffer of the index `i`: a single one serves every index. -/
def bufferOf (buffers : List Nat) (i : Nat) : Option Nat :=
  if buffers.length = 1 then buffers.head? else buffers[i]?

/-- The draw of a mesh, from the indirect buffer (0: none), the index buffer (0: none), what they are drawn with, and the
counts. -/
def meshDraw (db ib offset stride type indices vertices : Nat) : List DrawCmd.Cmd :=
  if db ≠ 0 then
    if ib ≠ 0 then [.bindIndex ib 0 type, .drawIndexedIndirect db offset 1 stride] else [.drawIndirect db offset 1 stride]
  else if ib ≠ 0 then [.bindIndex ib 0 type, .drawIndexed indices 1 0 0 0]
  else [.draw vertices 1 0 0]

end Verif.Cfg
