import Verif.Model.Vk
/-
Model of attachments.
Modelled code: /repo/include/RenderGraph/Attachment.hpp, /repo/source/RenderGraph/Attachment.cpp and the `add…`
methods of FramePass (/repo/include/RenderGraph/FramePass.hpp:93-645, /repo/source/RenderGraph/FramePass.cpp:277-541,
642-974). Names and sampler descriptions are left out. Clear values and blend states are opaque numbers; 0 stands for
`VkClearValue{}` and for `DefaultBlendState`.
-/
namespace Verif.Att

/-! `ImageAttachment::Flag`, Attachment.hpp:67-81. -/
namespace ImgFlag
def sampled : Nat := 1
def storage : Nat := 2
def transfer : Nat := 4
def depth : Nat := 8
def stencil : Nat := 16
def stencilClearing : Nat := 32
def stencilInput : Nat := 64
def stencilOutput : Nat := 128
def transition : Nat := 256
def depthStencil : Nat := 24
def stencilInOut : Nat := 192
end ImgFlag

/-! `BufferAttachment::Flag`, Attachment.hpp:217-228. -/
namespace BufFlag
def uniform : Nat := 1
def storage : Nat := 2
def transfer : Nat := 4
def view : Nat := 8
def transition : Nat := 16
end BufFlag

/-! `Attachment::Flag`, Attachment.hpp:332-342. -/
namespace Flag
def input : Nat := 1
def output : Nat := 2
def image : Nat := 4
def buffer : Nat := 8
def noTransition : Nat := 16
def clearable : Nat := 32
def inOut : Nat := 3
end Flag

/-! `VkAttachmentLoadOp`, `VkAttachmentStoreOp`. -/
namespace LoadOp
def load : Nat := 0
def clear : Nat := 1
def dontCare : Nat := 2
end LoadOp
namespace StoreOp
def store : Nat := 0
def dontCare : Nat := 1
end StoreOp

/-- `hasFlag`, Attachment.hpp:106-109, 242-245, 363-366. -/
def hasFlag (flags f : Nat) : Bool := flags &&& f == f

/-- `ImageAttachment`, Attachment.hpp:57-193 (default constructed for buffers). -/
structure ImgAttach where
  flags : Nat := 0
  views : List View := []
  loadOp : Nat := 0
  storeOp : Nat := 0
  stencilLoadOp : Nat := 0
  stencilStoreOp : Nat := 0
  wantedLayout : Nat := 0
  clearValue : Nat := 0
  blend : Nat := 0
deriving DecidableEq, Repr

/-- `BufferAttachment`, Attachment.hpp:203-320 (default constructed for images). -/
structure BufAttach where
  flags : Nat := 0
  buffers : List Nat := []
  bufferView : Nat := 0
  offset : Nat := 0
  size : Nat := 0
  wantedAccess : AccessState := ⟨0, 0⟩
deriving DecidableEq, Repr

namespace ImgAttach
variable (a : ImgAttach)
/-- Attachment.hpp:111-114 -/
def isSampled : Bool := hasFlag a.flags ImgFlag.sampled
/-- Attachment.hpp:116-119 -/
def isStorage : Bool := hasFlag a.flags ImgFlag.storage
/-- Attachment.hpp:121-124 -/
def isTransfer : Bool := hasFlag a.flags ImgFlag.transfer
/-- Attachment.hpp:126-129 -/
def isTransition : Bool := hasFlag a.flags ImgFlag.transition
/-- Attachment.hpp:131-134 -/
def isDepth : Bool := hasFlag a.flags ImgFlag.depth && !a.isTransition
/-- Attachment.hpp:136-139 -/
def isStencil : Bool := hasFlag a.flags ImgFlag.stencil && !a.isTransition
/-- Attachment.hpp:141-144 -/
def isDepthStencil : Bool := a.isDepth && a.isStencil
/-- Attachment.hpp:146-154 -/
def isColour : Bool :=
  !a.isSampled && !a.isTransition && !a.isStorage && !a.isTransfer && !a.isDepth && !a.isStencil
/-- Attachment.hpp:161-164 -/
def isStencilInput : Bool := hasFlag a.flags ImgFlag.stencilInput
/-- Attachment.hpp:166-169 -/
def isStencilOutput : Bool := hasFlag a.flags ImgFlag.stencilOutput

/-- `ImageAttachment::view`, Attachment.cpp:219-224; `none` is the out-of-range access of `views[index]`. -/
def view (index : Nat) : Option View :=
  if a.views.length = 1 then a.views.head? else a.views[index]?

/-- `ImageAttachment::getImageLayout`, Attachment.cpp:236-322. -/
def getImageLayout (sepDS isInput isOutput : Bool) : Nat :=
  if a.isSampled then Layout.shaderReadOnly
  else if a.isTransition then a.wantedLayout
  else if a.isStorage then Layout.general
  else if a.isTransfer then
    if isOutput then Layout.transferDst else if isInput then Layout.transferSrc else Layout.shaderReadOnly
  else if a.isColour then Layout.colorAttachment
  else if sepDS then
    if a.isDepthStencil then
      if isOutput then Layout.depthStencilAttachment
      else if isInput then Layout.depthStencilReadOnly else Layout.shaderReadOnly
    else if a.isStencil then
      if isOutput && a.isStencilOutput then Layout.stencilAttachment
      else if isInput && a.isStencilInput then Layout.stencilReadOnly else Layout.shaderReadOnly
    else if a.isDepth then
      if isOutput then Layout.depthAttachment
      else if isInput then Layout.depthReadOnly else Layout.shaderReadOnly
    else Layout.shaderReadOnly
  else
    if isOutput && (a.isDepth || a.isStencilOutput) then Layout.depthStencilAttachment
    else if isInput && (a.isDepth || a.isStencilInput) then Layout.depthStencilReadOnly
    else Layout.shaderReadOnly

/-- `ImageAttachment::getAccessMask`, Attachment.cpp:324-387. -/
def getAccessMask (isInput isOutput : Bool) : Nat :=
  let rw (r w : Nat) : Nat := (if isInput then r else 0) ||| (if isOutput then w else 0)
  if a.isSampled then Access.shaderRead
  else if a.isTransition then Verif.getAccessMask a.wantedLayout
  else if a.isStorage then rw Access.shaderRead Access.shaderWrite
  else if a.isTransfer then rw Access.transferRead Access.transferWrite
  else if a.isDepth || a.isStencil then rw Access.depthStencilRead Access.depthStencilWrite
  else rw Access.colorRead Access.colorWrite

/-- `ImageAttachment::getPipelineStageFlags`, Attachment.cpp:389-426. -/
def getPipelineStageFlags (isCompute : Bool) : Nat :=
  if a.isSampled then Stage.fragmentShader
  else if a.isTransition then getStageMask a.wantedLayout
  else if a.isStorage then if isCompute then Stage.computeShader else Stage.fragmentShader
  else if a.isTransfer then Stage.transfer
  else if a.isDepth || a.isStencil then Stage.lateFragmentTests
  else Stage.colorAttachmentOutput

end ImgAttach

/-- `VkDescriptorType` values used. -/
inductive DescType where
  | combinedImageSampler | storageImage | uniformTexelBuffer | storageTexelBuffer | uniformBuffer | storageBuffer
deriving DecidableEq, Repr

/-- `ImageAttachment::getDescriptorType`, Attachment.cpp:226-234. -/
def ImgAttach.descType (a : ImgAttach) : DescType :=
  if a.isStorage then .storageImage else .combinedImageSampler

namespace BufAttach
variable (a : BufAttach)
/-- Attachment.hpp:252-255 -/
def isUniform : Bool := hasFlag a.flags BufFlag.uniform
/-- Attachment.hpp:257-260 -/
def isStorage : Bool := hasFlag a.flags BufFlag.storage
/-- Attachment.hpp:262-265 -/
def isTransfer : Bool := hasFlag a.flags BufFlag.transfer
/-- Attachment.hpp:267-270 -/
def isTransition : Bool := hasFlag a.flags BufFlag.transition
/-- Attachment.hpp:272-275 -/
def isView : Bool := hasFlag a.flags BufFlag.view

/-- `Buffer::buffer( index )`: the only buffer, or the one at the index; `none` is out of range. -/
def buffer (index : Nat) : Option Nat :=
  if a.buffers.length = 1 then a.buffers.head? else a.buffers[index]?

/-- `BufferAttachment::getAccessMask`, Attachment.cpp:111-150. -/
def getAccessMask (isInput isOutput : Bool) : Nat :=
  let rw (r w : Nat) : Nat := (if isInput then r else 0) ||| (if isOutput then w else 0)
  if a.isTransition then a.wantedAccess.access
  else if a.isStorage then rw Access.shaderRead Access.shaderWrite
  else if a.isTransfer then rw Access.transferRead Access.transferWrite
  else Access.shaderRead

/-- `BufferAttachment::getPipelineStageFlags`, Attachment.cpp:152-174. -/
def getPipelineStageFlags (isCompute : Bool) : Nat :=
  if a.isTransition then a.wantedAccess.stage
  else if a.isTransfer then Stage.transfer
  else if isCompute then Stage.computeShader
  else Stage.fragmentShader

/-- `BufferAttachment::getDescriptorType`, Attachment.cpp:91-109. -/
def descType : DescType :=
  if a.isUniform && a.isView then .uniformTexelBuffer
  else if a.isStorage && a.isView then .storageTexelBuffer
  else if a.isUniform then .uniformBuffer
  else .storageBuffer
end BufAttach

/-- `Attachment`, Attachment.hpp:325-685. -/
structure Attachment where
  pass : Nat
  binding : Nat
  flags : Nat
  img : ImgAttach := {}
  buf : BufAttach := {}
deriving DecidableEq, Repr

namespace Attachment
variable (a : Attachment)
/-- Attachment.hpp:368-371 -/
def isNoTransition : Bool := hasFlag a.flags Flag.noTransition
/-- Attachment.hpp:373-376 -/
def isInput : Bool := hasFlag a.flags Flag.input
/-- Attachment.hpp:378-381 -/
def isOutput : Bool := hasFlag a.flags Flag.output
/-- Attachment.hpp:388-391 -/
def isImage : Bool := hasFlag a.flags Flag.image
/-- Attachment.hpp:393-396 -/
def isBuffer : Bool := hasFlag a.flags Flag.buffer
/-- Attachment.hpp:398-401 -/
def isClearable : Bool := hasFlag a.flags Flag.clearable
/-- Attachment.hpp:412-440 -/
def isStorageBuffer : Bool := a.isBuffer && a.buf.isStorage
def isTransferBuffer : Bool := a.isBuffer && a.buf.isTransfer
def isTransitionBuffer : Bool := a.isBuffer && a.buf.isTransition
def isClearableBuffer : Bool := a.isBuffer && a.isOutput && a.isClearable
/-- Attachment.hpp:442-447 -/
def isClearableImage : Bool := a.isImage && a.isOutput && a.isClearable
/-- Attachment.hpp:469-487 -/
def isSampledView : Bool := a.isImage && a.img.isSampled
def isStorageView : Bool := a.isImage && a.img.isStorage
def isTransferView : Bool := a.isImage && a.img.isTransfer
def isTransitionView : Bool := a.isImage && a.img.isTransition
/-- `Attachment::getImageLayout`, Attachment.cpp:565-571 -/
def getImageLayout (sepDS : Bool) : Nat := a.img.getImageLayout sepDS a.isInput a.isOutput
/-- `Attachment::getAccessMask`, Attachment.cpp:589-599 -/
def getAccessMask : Nat :=
  if a.isImage then a.img.getAccessMask a.isInput a.isOutput else a.buf.getAccessMask a.isInput a.isOutput
/-- `Attachment::getPipelineStageFlags`, Attachment.cpp:601-609 -/
def getPipelineStageFlags (isCompute : Bool) : Nat :=
  if a.isImage then a.img.getPipelineStageFlags isCompute else a.buf.getPipelineStageFlags isCompute
/-- `Attachment::getDescriptorType`, Attachment.cpp:573-581 -/
def descType : DescType := if a.isImage then a.img.descType else a.buf.descType
end Attachment

/-- Image attachment constructor, Attachment.cpp:453-495: load operations add the input flag, store operations
the output flag. -/
def mkImage (flags pass binding imageFlags : Nat) (views : List View) (loadOp storeOp stencilLoadOp stencilStoreOp
    wantedLayout : Nat) (clearValue blend : Nat := 0) : Attachment :=
  { pass, binding
    flags := flags ||| Flag.image
      ||| (if loadOp = LoadOp.load then Flag.input else 0)
      ||| (if storeOp = StoreOp.store then Flag.output else 0)
      ||| (if stencilLoadOp = LoadOp.load then Flag.input else 0)
      ||| (if stencilStoreOp = StoreOp.store then Flag.output else 0)
    img := { flags := imageFlags, views, loadOp, storeOp, stencilLoadOp, stencilStoreOp, wantedLayout, clearValue,
             blend } }

/-- Buffer attachment constructors, Attachment.cpp:497-536. -/
def mkBuffer (flags pass binding bufferFlags : Nat) (buffers : List Nat) (bufferView offset size : Nat)
    (wantedAccess : AccessState) : Attachment :=
  { pass, binding, flags := flags ||| Flag.buffer
    buf := { flags := bufferFlags, buffers, bufferView, offset, size, wantedAccess } }

/-- Direction of an attachment. -/
inductive Dir where
  | input | output | inOut
deriving DecidableEq, Repr

/-- The public image methods of `FramePass`, FramePass.hpp:238-645. -/
inductive ImageAdder where
  | sampled
  | implicitColour (layout : Nat)
  | implicitDepth (layout : Nat)
  | implicitDepthStencil (layout : Nat)
  | inputStorage | outputStorage | clearableOutputStorage | inOutStorage
  | transferInput | transferOutput | transferInOut (extraFlag : Nat)
  | inputColour | inOutColour | outputColour
  | inputDepth | inOutDepth | outputDepth
  | inputDepthStencil | inOutDepthStencil | outputDepthStencil
  | inputStencil | inOutStencil | outputStencil
deriving DecidableEq, Repr

/-- `InvalidBindingId` = `numeric_limits< uint32_t >::max()`, Attachment.hpp:17. -/
def invalidBinding : Nat := 4294967295

/-- The attachment each method creates. `clear` is the clear value the `addOutput…View` methods take (the others pass
`VkClearValue{}`), `blend` the blend state `addInOutColourView` takes (the others leave the default). -/
def ImageAdder.attach (m : ImageAdder) (pass binding : Nat) (views : List View) (clear blend : Nat := 0) : Attachment :=
  let dc := LoadOp.dontCare
  let sdc := StoreOp.dontCare
  let plain (flags b imgFlags layout : Nat) := mkImage flags pass b imgFlags views dc sdc dc sdc layout
  match m with
  -- FramePass.cpp:642-661
  | .sampled => plain Flag.input binding ImgFlag.sampled Layout.shaderReadOnly
  -- FramePass.cpp:663-722
  | .implicitColour l => plain Flag.input invalidBinding ImgFlag.transition l
  | .implicitDepth l => plain Flag.input invalidBinding (ImgFlag.transition ||| ImgFlag.depth) l
  | .implicitDepthStencil l => plain Flag.input invalidBinding (ImgFlag.transition ||| ImgFlag.depthStencil) l
  -- FramePass.cpp:724-803
  | .inputStorage => plain Flag.input binding ImgFlag.storage Layout.general
  | .outputStorage => plain Flag.output binding ImgFlag.storage Layout.general
  | .clearableOutputStorage => plain (Flag.output ||| Flag.clearable) binding ImgFlag.storage Layout.general
  | .inOutStorage => plain Flag.inOut binding ImgFlag.storage Layout.general
  -- FramePass.cpp:805-860
  | .transferInput => plain Flag.input invalidBinding ImgFlag.transfer Layout.transferSrc
  | .transferOutput => plain Flag.output invalidBinding ImgFlag.transfer Layout.transferDst
  | .transferInOut f => plain (Flag.inOut ||| f) invalidBinding ImgFlag.transfer Layout.transferSrc
  -- FramePass.hpp:442-485 with FramePass.cpp:862-887
  | .inputColour =>
    mkImage Flag.input pass 0 0 views LoadOp.load StoreOp.dontCare dc sdc Layout.colorAttachment
  | .inOutColour =>
    mkImage Flag.inOut pass 0 0 views LoadOp.load StoreOp.store dc sdc Layout.colorAttachment (blend := blend)
  | .outputColour =>
    mkImage Flag.output pass 0 0 views LoadOp.clear StoreOp.store dc sdc Layout.colorAttachment (clearValue := clear)
  -- FramePass.hpp:489-536 with FramePass.cpp:889-915
  | .inputDepth =>
    mkImage Flag.input pass 0 ImgFlag.depth views LoadOp.load sdc dc sdc Layout.depthStencilAttachment
  | .inOutDepth =>
    mkImage Flag.inOut pass 0 ImgFlag.depth views LoadOp.load StoreOp.store dc sdc Layout.depthStencilAttachment
  | .outputDepth =>
    mkImage Flag.output pass 0 ImgFlag.depth views LoadOp.clear StoreOp.store dc sdc Layout.depthStencilAttachment
      (clearValue := clear)
  -- FramePass.hpp:541-591 with FramePass.cpp:946-974
  | .inputDepthStencil =>
    mkImage Flag.input pass 0 (ImgFlag.stencilInput ||| ImgFlag.depthStencil) views LoadOp.load sdc LoadOp.load sdc
      Layout.depthStencilAttachment
  | .inOutDepthStencil =>
    mkImage Flag.inOut pass 0 (ImgFlag.stencilInOut ||| ImgFlag.depthStencil) views LoadOp.load StoreOp.store
      LoadOp.load StoreOp.store Layout.depthStencilAttachment
  | .outputDepthStencil =>
    mkImage Flag.output pass 0 (ImgFlag.stencilOutput ||| ImgFlag.depthStencil) views LoadOp.clear StoreOp.store
      LoadOp.clear StoreOp.store Layout.depthStencilAttachment (clearValue := clear)
  -- FramePass.hpp:596-645 with FramePass.cpp:917-944
  | .inputStencil =>
    mkImage Flag.input pass 0 (ImgFlag.stencilInput ||| ImgFlag.stencil) views dc sdc LoadOp.load sdc
      Layout.depthStencilAttachment
  | .inOutStencil =>
    mkImage Flag.inOut pass 0 (ImgFlag.stencilInOut ||| ImgFlag.stencil) views dc sdc LoadOp.load StoreOp.store
      Layout.depthStencilAttachment
  | .outputStencil =>
    mkImage Flag.output pass 0 (ImgFlag.stencilOutput ||| ImgFlag.stencil) views dc sdc LoadOp.clear StoreOp.store
      Layout.depthStencilAttachment (clearValue := clear)

/-- The public buffer methods of `FramePass`, FramePass.hpp:93-214. -/
inductive BufferAdder where
  | implicit (access : AccessState) | uniform | inputStorage | outputStorage | clearableOutputStorage | inOutStorage
  | implicitView (access : AccessState) | uniformView | inputStorageView | outputStorageView
  | clearableOutputStorageView | inOutStorageView
  | transferInput | transferOutput | transferInOut (extraFlag : Nat)
deriving DecidableEq, Repr

/-- The attachment each method creates, FramePass.cpp:277-541. -/
def BufferAdder.attach (m : BufferAdder) (pass binding : Nat) (buffers : List Nat) (bufferView offset size : Nat) :
    Attachment :=
  let mk (flags b bufFlags : Nat) (v : Nat) (acc : AccessState := ⟨0, 0⟩) :=
    mkBuffer flags pass b bufFlags buffers v offset size acc
  match m with
  | .implicit acc => mk Flag.input invalidBinding BufFlag.transition 0 acc
  | .uniform => mk Flag.input binding BufFlag.uniform 0
  | .inputStorage => mk Flag.input binding BufFlag.storage 0
  | .outputStorage => mk Flag.output binding BufFlag.storage 0
  | .clearableOutputStorage => mk (Flag.output ||| Flag.clearable) binding BufFlag.storage 0
  | .inOutStorage => mk Flag.inOut binding BufFlag.storage 0
  | .implicitView acc => mk Flag.input invalidBinding (BufFlag.transition ||| BufFlag.view) bufferView acc
  | .uniformView => mk Flag.input binding (BufFlag.uniform ||| BufFlag.view) bufferView
  | .inputStorageView => mk Flag.input binding (BufFlag.storage ||| BufFlag.view) bufferView
  | .outputStorageView => mk Flag.output binding (BufFlag.storage ||| BufFlag.view) bufferView
  | .clearableOutputStorageView =>
    mk (Flag.output ||| Flag.clearable) binding (BufFlag.storage ||| BufFlag.view) bufferView
  | .inOutStorageView => mk Flag.inOut binding (BufFlag.storage ||| BufFlag.view) bufferView
  | .transferInput => mk Flag.input invalidBinding BufFlag.transfer 0
  | .transferOutput => mk Flag.output invalidBinding BufFlag.transfer 0
  | .transferInOut f => mk (Flag.inOut ||| f) invalidBinding BufFlag.transfer 0

end Verif.Att
