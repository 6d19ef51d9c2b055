import Verif.Model.Transfer
import Verif.Spec.Memory
import Verif.Spec.Graph
/-
Vocabulary of the transfer properties: attachments two by two, texels of a view, texels of a box, bytes of a packed texel.
-/
namespace Verif.Xfer
open Verif.Rec Verif.Att Verif.Run Verif.Gpu

/-- The elements two by two; a last one on its own is left out. -/
def pairs {α : Type} : List α → List (α × α)
  | a :: b :: rest => (a, b) :: pairs rest
  | _ => []

/-- Byte `k` of the texel at `(x, y, z)`, for aspect bit `a`, in layer `l` of the view's first level. -/
def texel (v : View) (a l : Nat) (x y z : Int) (k : Nat) : Cell :=
  ⟨v.image.id, a, v.range.baseLayer + l, v.range.baseMip, x, y, z, k⟩

/-- The coordinates are in the box of the given corner and size. -/
def Inside (o : Offset) (s : Extent) (x y z : Int) : Prop :=
  o.x ≤ x ∧ x < o.x + s.w ∧ o.y ≤ y ∧ y < o.y + s.h ∧ o.z ≤ z ∧ z < o.z + s.d

/-- The origin. -/
def origin : Offset := ⟨0, 0, 0⟩

/-- The byte of an image is one of the box of the first level of the view, in any of its layers. -/
def Covers (v : View) (o : Offset) (s : Extent) (c : Cell) : Prop :=
  ∃ a l x y z k, c = texel v a l x y z k ∧ v.range.aspect.testBit a = true ∧ l < v.range.layers ∧ Inside o s x y z

/-- The images of a pass do not overlap each other and are not empty. -/
def Separate (p : RunPass) (index : Nat) : Prop :=
  (p.images.Pairwise fun a b => ∀ v w, a.img.view index = some v → b.img.view index = some w → View.Apart v w)
  ∧ ∀ a ∈ p.images, ∀ v, a.img.view index = some v → v.range.NonEmpty

end Verif.Xfer

namespace Verif.Xfer
open Verif.Rec Verif.Att Verif.Run Verif.Gpu

/-- The attachment is one whose images the graph puts in the layout before the pass. -/
def Declared (sepDS : Bool) (a : Attachment) (layout : Nat) : Prop :=
  moved a = true ∧ a.getImageLayout sepDS = layout

instance (s a l) : Decidable (Declared s a l) := by unfold Declared; infer_instance

/-- The pass is one of the library's transfer passes, and its attachments declare what it does with them: sources are
transfer inputs, destinations transfer outputs. `none` (undefined behaviour) is taken to record nothing. -/
inductive Transfers (sepDS : Bool) (p : RunPass) : Prop
  | imageCopy (en : Nat → Bool) (size : Extent) (final : Nat)
      (body : ∀ index r, p.body index r = (Xfer.imageCopy ⟨sepDS, en⟩ p size final index r).getD r)
      (declared : ∀ ab ∈ pairs p.images, Declared sepDS ab.1 Layout.transferSrc ∧ Declared sepDS ab.2 Layout.transferDst)
  | imageBlit (srcOffset : Offset) (srcSize : Extent) (dstOffset : Offset) (dstSize : Extent) (filter : Nat)
      (body : ∀ index r, p.body index r = (Xfer.imageBlit p srcOffset srcSize dstOffset dstSize filter index r).getD r)
      (declared : ∀ a, p.images.head? = some a → Declared sepDS a Layout.transferSrc)
      (declared' : ∀ a, p.images.getLast? = some a → Declared sepDS a Layout.transferDst)
  | bufferCopy (copyOffset copyRange : Nat)
      (body : ∀ index r, p.body index r = (Xfer.bufferCopy p copyOffset copyRange index r).getD r)
  | bufferToImage (offset : Offset) (size : Extent)
      (body : ∀ index r, p.body index r = (Xfer.bufferToImage p offset size index r).getD r)
      (declared : ∀ a, p.images.getLast? = some a → Declared sepDS a Layout.transferDst)
  | imageToBuffer (offset : Offset) (size : Extent)
      (body : ∀ index r, p.body index r = (Xfer.imageToBuffer p offset size index r).getD r)
      (declared : ∀ a, p.images.getLast? = some a → Declared sepDS a Layout.transferSrc)

end Verif.Xfer
