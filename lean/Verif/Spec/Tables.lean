import Verif.Spec.Formats
import Verif.Model.Attachment
/-
Tables of the Vulkan specification, written with the numbers of the headers and independently of the model's helpers.
-/
namespace Verif.Tables
open Verif.Att

/-- The stage in which a pass accesses an image added by the method, the implicit methods excepted: shader resources in the
pass's shader stage, transfers in the transfer stage, render targets in the stage that writes them. -/
def imageStage (compute : Bool) : ImageAdder → Option Nat
  | .sampled | .inputStorage | .outputStorage | .clearableOutputStorage | .inOutStorage =>
    some (if compute then 0x800 else 0x80)
  | .transferInput | .transferOutput | .transferInOut _ => some 0x1000
  | .inputColour | .inOutColour | .outputColour => some 0x400
  | .inputDepth | .inOutDepth | .outputDepth | .inputDepthStencil | .inOutDepthStencil | .outputDepthStencil
  | .inputStencil | .inOutStencil | .outputStencil => some 0x200
  | .implicitColour _ | .implicitDepth _ | .implicitDepthStencil _ => none

/-- The same for buffers. -/
def bufferStage (compute : Bool) : BufferAdder → Option Nat
  | .uniform | .inputStorage | .outputStorage | .clearableOutputStorage | .inOutStorage | .uniformView | .inputStorageView
  | .outputStorageView | .clearableOutputStorageView | .inOutStorageView => some (if compute then 0x800 else 0x80)
  | .transferInput | .transferOutput | .transferInOut _ => some 0x1000
  | .implicit _ | .implicitView _ => none

/-- What a method's attachment reads (`.1`) and writes (`.2`): shader, colour, depth/stencil or transfer accesses. -/
def imageAccesses : ImageAdder → Option (Nat × Nat)
  | .sampled | .inputStorage | .outputStorage | .clearableOutputStorage | .inOutStorage => some (0x20, 0x40)
  | .transferInput | .transferOutput | .transferInOut _ => some (0x800, 0x1000)
  | .inputColour | .inOutColour | .outputColour => some (0x80, 0x100)
  | .inputDepth | .inOutDepth | .outputDepth | .inputDepthStencil | .inOutDepthStencil | .outputDepthStencil
  | .inputStencil | .inOutStencil | .outputStencil => some (0x200, 0x400)
  | .implicitColour _ | .implicitDepth _ | .implicitDepthStencil _ => none

/-- The same for buffers. -/
def bufferAccesses : BufferAdder → Option (Nat × Nat)
  | .uniform | .inputStorage | .outputStorage | .clearableOutputStorage | .inOutStorage | .uniformView | .inputStorageView
  | .outputStorageView | .clearableOutputStorageView | .inOutStorageView => some (0x20, 0x40)
  | .transferInput | .transferOutput | .transferInOut _ => some (0x800, 0x1000)
  | .implicit _ | .implicitView _ => none

end Verif.Tables
