import Verif.Model.RunnableGraph
/-
Model of the passes that transfer data.
Modelled code: /repo/source/RenderGraph/RunnablePasses/BufferCopy.cpp (doRecordInto 37-72), ImageCopy.cpp (convert 14-23,
doRecordInto 68-109), ImageBlit.cpp (convert 14-23, doRecordInto 55-75), BufferToImageCopy.cpp (convert 14-23, doRecordInto
48-69), ImageToBufferCopy.cpp (convert 14-23, doRecordInto 48-69). Simplifications: sizes are unbounded (`VkDeviceSize` is 64 bits). `none` is undefined behaviour:
`front()`/`back()` of an empty vector, `view( index )`/`buffer( index )` out of range, a destination iterator past the end.
-/
namespace Verif.Xfer
open Verif.Rec Verif.Att Verif.Run

/-- `convert( VkImageSubresourceRange const & )`, lines 14-23 of the four files: the base level, all the layers. -/
def layersOf (r : Range) : Range := { r with levels := 1 }

/-- `VkExtent3D`. -/
structure Extent where
  w : Nat
  h : Nat
  d : Nat
deriving DecidableEq, Repr

/-- `VkOffset3D`. -/
structure Offset where
  x : Int
  y : Int
  z : Int
deriving DecidableEq, Repr

/-- One turn of the `while` loop of `ImageCopy::doRecordInto`, ImageCopy.cpp:77-101. -/
def copyPair (env : Env) (size : Extent) (final index : Nat) (r : Rec) (src dst : Attachment) : Option Rec :=
  match src.img.view index, dst.img.view index with
  | some s, some t =>
    let r := r.emit (.copyImage s.image.id Layout.transferSrc (layersOf s.range) t.image.id Layout.transferDst
      (layersOf t.range) size.w size.h size.d)
    some (r.finalBarrier env t final)
  | _, _ => none

/-- The `while` loop, ImageCopy.cpp:72-108: attachments are taken two by two. (For no attachment `std::next( begin )`
is computed and not used.) -/
def copyPairs (env : Env) (size : Extent) (final index : Nat) : List Attachment → Rec → Option Rec
  | [], r => some r
  | [_], _ => none
  | s :: t :: rest, r =>
    match copyPair env size final index r s t with
    | none => none
    | some r => copyPairs env size final index rest r

/-- `ImageCopy::doRecordInto`, ImageCopy.cpp:68-109. -/
def imageCopy (env : Env) (p : RunPass) (size : Extent) (final index : Nat) (r : Rec) : Option Rec :=
  copyPairs env size final index p.images r

/-- `ImageBlit::doRecordInto`, ImageBlit.cpp:55-75. The second corners are the sizes, 64, 66. -/
def imageBlit (p : RunPass) (srcOffset : Offset) (srcSize : Extent) (dstOffset : Offset) (dstSize : Extent) (filter : Nat)
    (index : Nat) (r : Rec) : Option Rec :=
  match p.images.head?, p.images.getLast? with
  | some a, some b =>
    match a.img.view index, b.img.view index with
    | some s, some t => some (r.emit (.blitImage s.image.id Layout.transferSrc (layersOf s.range)
        ⟨srcOffset.x, srcOffset.y, srcOffset.z, srcSize.w, srcSize.h, srcSize.d⟩ t.image.id Layout.transferDst (layersOf t.range)
        ⟨dstOffset.x, dstOffset.y, dstOffset.z, dstSize.w, dstSize.h, dstSize.d⟩ filter))
    | _, _ => none
  | _, _ => none

/-- `BufferCopy::doRecordInto`, BufferCopy.cpp:37-72. -/
def bufferCopy (p : RunPass) (copyOffset copyRange index : Nat) (r : Rec) : Option Rec :=
  match p.buffers.head?, p.buffers.getLast? with
  | some a, some b =>
    match a.buf.buffer index, b.buf.buffer index with
    | some s, some t =>
      let r := r.bufferBarrier s a.buf.offset a.buf.size ⟨Access.shaderWrite, Stage.fragmentShader⟩
        ⟨Access.transferRead, Stage.transfer⟩
      let r := r.bufferBarrier t b.buf.offset b.buf.size ⟨0, Stage.bottomOfPipe⟩ ⟨Access.transferWrite, Stage.transfer⟩
      let r := r.emit (.copyBuffer s t (a.buf.offset + copyOffset) (b.buf.offset + copyOffset) copyRange)
      let r := r.bufferBarrier t b.buf.offset b.buf.size ⟨0, Stage.bottomOfPipe⟩ ⟨Access.shaderRead, Stage.computeShader⟩
      some (r.bufferBarrier s a.buf.offset a.buf.size ⟨0, Stage.bottomOfPipe⟩
        ⟨Access.shaderWrite, Stage.fragmentShader⟩)
    | _, _ => none
  | _, _ => none

/-- `BufferToImageCopy::doRecordInto`, BufferToImageCopy.cpp:48-69. The offset in the buffer is 0, 57. -/
def bufferToImage (p : RunPass) (offset : Offset) (size : Extent) (index : Nat) (r : Rec) : Option Rec :=
  match p.images.getLast?, p.buffers.head? with
  | some a, some b =>
    match a.img.view index, b.buf.buffer index with
    | some t, some s => some (r.emit (.copyBufferToImage s 0 t.image.id Layout.transferDst (layersOf t.range)
        offset.x offset.y offset.z size.w size.h size.d))
    | _, _ => none
  | _, _ => none

/-- `ImageToBufferCopy::doRecordInto`, ImageToBufferCopy.cpp:48-69. The offset in the buffer is 0, 57. -/
def imageToBuffer (p : RunPass) (offset : Offset) (size : Extent) (index : Nat) (r : Rec) : Option Rec :=
  match p.images.getLast?, p.buffers.head? with
  | some a, some b =>
    match a.img.view index, b.buf.buffer index with
    | some s, some t => some (r.emit (.copyImageToBuffer s.image.id Layout.transferSrc (layersOf s.range)
        offset.x offset.y offset.z size.w size.h size.d t 0))
    | _, _ => none
  | _, _ => none

end Verif.Xfer
