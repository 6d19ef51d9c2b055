import Verif.Model.Attachment
/-
Specification vocabulary for attachments: the direction documented for each `add…` method and Vulkan's tables
of what a layout allows and of which accesses a pipeline stage can make.
-/
namespace Verif.Att

/-- Direction announced by the method's name. `none` for the implicit methods, which only name a layout. -/
def ImageAdder.dir : ImageAdder → Option Dir
  | .sampled | .inputStorage | .transferInput | .inputColour | .inputDepth | .inputDepthStencil | .inputStencil =>
    some .input
  | .outputStorage | .clearableOutputStorage | .transferOutput | .outputColour | .outputDepth | .outputDepthStencil
  | .outputStencil => some .output
  | .inOutStorage | .transferInOut _ | .inOutColour | .inOutDepth | .inOutDepthStencil | .inOutStencil => some .inOut
  | .implicitColour _ | .implicitDepth _ | .implicitDepthStencil _ => none

/-- Direction announced by the method's name. -/
def BufferAdder.dir : BufferAdder → Option Dir
  | .uniform | .inputStorage | .uniformView | .inputStorageView | .transferInput => some .input
  | .outputStorage | .clearableOutputStorage | .outputStorageView | .clearableOutputStorageView | .transferOutput =>
    some .output
  | .inOutStorage | .inOutStorageView | .transferInOut _ => some .inOut
  | .implicit _ | .implicitView _ => none

def Dir.reads : Dir → Bool
  | .input | .inOut => true
  | .output => false
def Dir.writes : Dir → Bool
  | .output | .inOut => true
  | .input => false

/-- All read accesses (Vulkan specification, access types). -/
def readBits : Nat := Access.uniformRead ||| Access.inputAttachmentRead ||| Access.shaderRead ||| Access.colorRead
  ||| Access.depthStencilRead ||| Access.transferRead ||| Access.hostRead ||| Access.memoryRead
  ||| Access.shadingRateRead ||| Access.fragmentDensityMapRead
/-- All write accesses. -/
def writeBits : Nat := Access.shaderWrite ||| Access.colorWrite ||| Access.depthStencilWrite ||| Access.transferWrite
  ||| Access.hostWrite ||| Access.memoryWrite

/-- Every bit of `sub` is in `mask`. -/
def within (sub mask : Nat) : Bool := sub &&& mask == sub

/-- Accesses a single pipeline stage can make (Vulkan specification, "Supported access types"). -/
def stageAccesses (stage : Nat) : Nat :=
  if stage = Stage.fragmentShader then
    Access.uniformRead ||| Access.inputAttachmentRead ||| Access.shaderRead ||| Access.shaderWrite
      ||| Access.fragmentDensityMapRead
  else if stage = Stage.computeShader then Access.uniformRead ||| Access.shaderRead ||| Access.shaderWrite
  else if stage = Stage.transfer then Access.transferRead ||| Access.transferWrite
  else if stage = Stage.earlyFragmentTests ∨ stage = Stage.lateFragmentTests then
    Access.depthStencilRead ||| Access.depthStencilWrite
  else if stage = Stage.colorAttachmentOutput then Access.colorRead ||| Access.colorWrite
  else if stage = Stage.shadingRateImage then Access.shadingRateRead
  else if stage = Stage.host then Access.hostRead ||| Access.hostWrite
  else if stage = Stage.bottomOfPipe then Access.memoryRead ||| Access.memoryWrite
  else 0

/-- Accesses a layout allows (Vulkan specification, image layouts). -/
def layoutAccesses (l : Nat) : Nat :=
  if l = Layout.general then readBits ||| writeBits
  else if l = Layout.colorAttachment then Access.colorRead ||| Access.colorWrite
  else if l = Layout.depthStencilAttachment ∨ l = Layout.depthAttachment ∨ l = Layout.stencilAttachment then
    Access.depthStencilRead ||| Access.depthStencilWrite
  else if l = Layout.depthStencilReadOnly ∨ l = Layout.depthReadOnly ∨ l = Layout.stencilReadOnly then
    Access.depthStencilRead ||| Access.shaderRead ||| Access.inputAttachmentRead
  else if l = Layout.depthReadOnlyStencilAttachment ∨ l = Layout.depthAttachmentStencilReadOnly then
    Access.depthStencilRead ||| Access.depthStencilWrite ||| Access.shaderRead ||| Access.inputAttachmentRead
  else if l = Layout.shaderReadOnly then Access.shaderRead ||| Access.inputAttachmentRead
  else if l = Layout.transferSrc then Access.transferRead
  else if l = Layout.transferDst then Access.transferWrite
  else if l = Layout.presentSrc ∨ l = Layout.sharedPresent then Access.memoryRead
  else if l = Layout.shadingRate then Access.shadingRateRead
  else if l = Layout.fragmentDensityMap then Access.fragmentDensityMapRead
  else 0

end Verif.Att
