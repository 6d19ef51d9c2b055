import Verif.Model.RunnableGraph
/-
Model of mipmap generation.
Modelled code: /repo/source/RenderGraph/RunnablePasses/GenerateMipmaps.cpp (getSubresourceDimension 17-21,
doRecordInto 46-166). Simplifications: arithmetic is unbounded.
-/
namespace Verif.Mip
open Verif.Rec Verif.Run

/-- `genMips::getSubresourceDimension`, 17-21. -/
def dimension (extent level : Nat) : Nat := max 1 (extent >>> level)

/-- `mipSubRange` for one level of one layer, 73-77. -/
def sub (asp layer level : Nat) : Range := ⟨asp, level, 1, layer, 1⟩

/-- `imageBlit.dstOffsets` of a level, 83-88, 115-117: the source ones are those of the previous level, 109-111. -/
def corners (img : Image) (level : Nat) : Corners :=
  ⟨0, 0, 0, dimension img.width level, dimension img.height level, dimension img.depth level⟩

/-- `VK_FILTER_LINEAR`, 131. -/
def filterLinear : Nat := 1

/-- One turn of the `while` loop, 105-164, for level `l` (at least 1). `ty` is `VkImageViewType( imageType )`, which
the `memoryBarrier` overloads without view type use (RecordContext.cpp 204-217, 288-302). `next`: `nextLayoutState`. -/
def levelStep (env : Env) (img : Image) (ty : ViewType) (next : LayoutState) (layer : Nat) (r : Rec) (l : Nat) : Rec :=
  let asp := getAspectMask img.format
  let r := r.imageBarrier env img ty (sub asp layer l) Layout.undefined (makeLayoutState Layout.transferDst) false
  let r := r.emit (.blitImage img.id Layout.transferSrc (sub asp layer (l - 1)) (corners img (l - 1))
    img.id Layout.transferDst (sub asp layer l) (corners img l) filterLinear)
  let r := r.imageBarrier env img ty (sub asp layer (l - 1)) Layout.transferSrc next false
  if l = img.mipLevels - 1 then r.imageBarrier env img ty (sub asp layer l) Layout.transferDst next false
  else r.imageBarrier env img ty (sub asp layer l) Layout.transferDst (makeLayoutState Layout.transferSrc) false

/-- `{ TRANSFER_SRC, TRANSFER_READ, TRANSFER }`, 99-101. -/
def srcState : LayoutState := ⟨Layout.transferSrc, ⟨Access.transferRead, Stage.transfer⟩⟩

/-- One layer, 70-165. -/
def layerStep (env : Env) (G : GraphSt) (v : View) (ty : ViewType) (next : LayoutState) (r : Rec) (layer : Nat) : Rec :=
  let img := v.image
  let rg := sub (getAspectMask img.format) layer 0
  let cur := getCurrentLayoutState G r.ctx { v with range := rg }
  let r : Rec := { r with ctx := cur.2 }
  let r := r.imageBarrier env img ty rg cur.1.layout srcState false
  (List.range' 1 (img.mipLevels - 1)).foldl (levelStep env img ty next layer) r

/-- `GenerateMipmaps::doRecordInto`, 46-166, for the view `v` of the first attachment and the announced state `next`. -/
def generate (env : Env) (G : GraphSt) (v : View) (ty : ViewType) (next : LayoutState) (r : Rec) : Rec :=
  (List.range' v.range.baseLayer v.range.layers).foldl (layerStep env G v ty next) r

/-- The record callback of the pass `p`: `next` is what `getNextLayoutState` answers, 59-61. `output` is
`m_outputLayout` (constructor, 40-42): stored, and used nowhere. -/
def generateMipmaps (env : Env) (G : GraphSt) (p : RunPass) (_output : LayoutState) (v : View) (ty : ViewType)
    (r : Rec) : Rec :=
  generate env G v ty (getNextLayoutState env.sepDS G r.ctx p v) r

end Verif.Mip
