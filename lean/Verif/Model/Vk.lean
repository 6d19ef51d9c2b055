/-
Vulkan vocabulary shared by the models: enum values (from the Vulkan headers, part of the trusted base), image
and view descriptions, and the pure helper functions of /repo/source/RenderGraph/FrameGraph.cpp:403-560, 648-674.
Flag words and enums are `Nat`.
-/
namespace Verif

/-! `VkImageLayout` values. `std::map< VkImageLayout, … >` orders by these numbers (FrameGraph.cpp:582). -/

namespace Layout
def undefined : Nat := 0
def general : Nat := 1
def colorAttachment : Nat := 2
def depthStencilAttachment : Nat := 3
def depthStencilReadOnly : Nat := 4
def shaderReadOnly : Nat := 5
def transferSrc : Nat := 6
def transferDst : Nat := 7
def presentSrc : Nat := 1000001002
def sharedPresent : Nat := 1000111000
def depthReadOnlyStencilAttachment : Nat := 1000117000
def depthAttachmentStencilReadOnly : Nat := 1000117001
def shadingRate : Nat := 1000164003
def fragmentDensityMap : Nat := 1000218000
def depthAttachment : Nat := 1000241000
def depthReadOnly : Nat := 1000241001
def stencilAttachment : Nat := 1000241002
def stencilReadOnly : Nat := 1000241003
end Layout

/-! `VkAccessFlags`. -/
namespace Access
def uniformRead : Nat := 0x8
def inputAttachmentRead : Nat := 0x10
def shaderRead : Nat := 0x20
def shaderWrite : Nat := 0x40
def colorRead : Nat := 0x80
def colorWrite : Nat := 0x100
def depthStencilRead : Nat := 0x200
def depthStencilWrite : Nat := 0x400
def transferRead : Nat := 0x800
def transferWrite : Nat := 0x1000
def hostRead : Nat := 0x2000
def hostWrite : Nat := 0x4000
def memoryRead : Nat := 0x8000
def memoryWrite : Nat := 0x10000
def shadingRateRead : Nat := 0x800000
def fragmentDensityMapRead : Nat := 0x1000000
end Access

/-! `VkPipelineStageFlags`. -/
namespace Stage
def fragmentShader : Nat := 0x80
def earlyFragmentTests : Nat := 0x100
def lateFragmentTests : Nat := 0x200
def colorAttachmentOutput : Nat := 0x400
def computeShader : Nat := 0x800
def transfer : Nat := 0x1000
def bottomOfPipe : Nat := 0x2000
def host : Nat := 0x4000
def shadingRateImage : Nat := 0x400000
end Stage

/-! `VkImageAspectFlags`. -/
namespace Aspect
def color : Nat := 1
def depth : Nat := 2
def stencil : Nat := 4
end Aspect

/-- `VkImageViewType`. -/
inductive ViewType where
  | d1 | d2 | d3 | cube | d1Array | d2Array | cubeArray
deriving DecidableEq, Repr

/-- `PipelineState` = `AccessState`, FrameGraphPrerequisites.hpp:146-150, 158. -/
structure AccessState where
  access : Nat
  stage : Nat
deriving DecidableEq, Repr

/-- `LayoutState`, FrameGraphPrerequisites.hpp:152-156. -/
structure LayoutState where
  layout : Nat
  state : AccessState
deriving DecidableEq, Repr

/-- `VkImageSubresourceRange`. -/
structure Range where
  aspect : Nat
  baseMip : Nat
  levels : Nat
  baseLayer : Nat
  layers : Nat
deriving DecidableEq, Repr

/-- `ImageId` with the parts of `ImageData::info` that the modelled code reads (ImageData.hpp:15-45). -/
structure Image where
  id : Nat
  format : Nat
  mipLevels : Nat
  arrayLayers : Nat
  width : Nat
  height : Nat
  depth : Nat
deriving DecidableEq, Repr

/-- An unmerged `ImageViewId` with the parts of `ImageViewData` that the modelled code reads
(ImageViewData.hpp:15-38): identity, image, view type, format, range. -/
structure View where
  id : Nat
  image : Image
  viewType : ViewType
  format : Nat
  range : Range
deriving DecidableEq, Repr

/-- `getAccessMask( VkImageLayout )`, FrameGraph.cpp:403-451. -/
def getAccessMask (l : Nat) : Nat :=
  if l = Layout.presentSrc ∨ l = Layout.sharedPresent then Access.memoryRead
  else if l = Layout.colorAttachment then Access.colorWrite
  else if l = Layout.depthStencilAttachment then Access.depthStencilWrite
  else if l = Layout.depthStencilReadOnly then Access.depthStencilRead
  else if l = Layout.shaderReadOnly then Access.shaderRead
  else if l = Layout.transferSrc then Access.transferRead
  else if l = Layout.transferDst then Access.transferWrite
  else if l = Layout.depthReadOnlyStencilAttachment ∨ l = Layout.depthAttachmentStencilReadOnly then
    Access.depthStencilRead ||| Access.depthStencilWrite
  else if l = Layout.shadingRate then Access.shadingRateRead
  else if l = Layout.fragmentDensityMap then Access.fragmentDensityMapRead
  else 0

/-- `getStageMask( VkImageLayout )`, FrameGraph.cpp:504-549. -/
def getStageMask (l : Nat) : Nat :=
  if l = Layout.undefined then Stage.host
  else if l = Layout.general then Stage.bottomOfPipe
  else if l = Layout.presentSrc ∨ l = Layout.sharedPresent then Stage.bottomOfPipe
  else if l = Layout.depthStencilReadOnly ∨ l = Layout.depthReadOnlyStencilAttachment
      ∨ l = Layout.depthAttachmentStencilReadOnly ∨ l = Layout.depthStencilAttachment then
    Stage.lateFragmentTests
  else if l = Layout.colorAttachment then Stage.colorAttachmentOutput
  else if l = Layout.fragmentDensityMap ∨ l = Layout.shaderReadOnly then Stage.fragmentShader
  else if l = Layout.transferSrc ∨ l = Layout.transferDst then Stage.transfer
  else if l = Layout.shadingRate then Stage.shadingRateImage
  else 0

/-- `makeLayoutState`, FrameGraph.cpp:497-502. -/
def makeLayoutState (l : Nat) : LayoutState := ⟨l, ⟨getAccessMask l, getStageMask l⟩⟩

/-- `getPipelineState( VkPipelineStageFlags )`, FrameGraph.cpp:453-495. -/
def getPipelineState (flags : Nat) : AccessState :=
  let has (b : Nat) : Bool := flags &&& b == b
  let r := 0
  let r := if has Stage.bottomOfPipe then r ||| Access.memoryRead else r
  let r := if has Stage.colorAttachmentOutput then r ||| (Access.colorWrite ||| Access.colorRead) else r
  let r := if has Stage.lateFragmentTests then (r ||| Access.depthStencilWrite) ||| Access.depthStencilRead else r
  let r := if has Stage.fragmentShader then r ||| Access.shaderRead else r
  let r := if has Stage.transfer then (r ||| Access.transferRead) ||| Access.transferWrite else r
  let r := if has Stage.shadingRateImage then r ||| Access.shadingRateRead else r
  let r := if has Stage.computeShader then r ||| Access.shaderRead else r
  ⟨r, flags⟩

/-! `VkFormat` values of the depth/stencil formats; every other number is a colour format. -/
namespace Format
def d16 : Nat := 124
def x8d24 : Nat := 125
def d32 : Nat := 126
def s8 : Nat := 127
def d16s8 : Nat := 128
def d24s8 : Nat := 129
def d32s8 : Nat := 130
end Format

/-- `isDepthFormat`, FrameGraph.cpp:648-656. -/
def isDepthFormat (f : Nat) : Bool :=
  f == Format.d16 || f == Format.x8d24 || f == Format.d32 || f == Format.d16s8 || f == Format.d24s8
    || f == Format.d32s8
/-- `isStencilFormat`, FrameGraph.cpp:658-664. -/
def isStencilFormat (f : Nat) : Bool :=
  f == Format.s8 || f == Format.d16s8 || f == Format.d24s8 || f == Format.d32s8
/-- `isColourFormat`, FrameGraph.cpp:666-669. -/
def isColourFormat (f : Nat) : Bool := !isDepthFormat f && !isStencilFormat f
/-- `isDepthStencilFormat`, FrameGraph.cpp:671-674. -/
def isDepthStencilFormat (f : Nat) : Bool := isDepthFormat f && isStencilFormat f

/-- `getAspectMask( VkFormat )`, FrameGraph.cpp:551-560. -/
def getAspectMask (f : Nat) : Nat :=
  if isDepthStencilFormat f then Aspect.depth ||| Aspect.stencil
  else if isDepthFormat f then Aspect.depth
  else if isStencilFormat f then Aspect.stencil
  else Aspect.color

end Verif
