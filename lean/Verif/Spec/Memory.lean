import Verif.Spec.Gpu
/-
What commands do to the contents of images and buffers, after the Vulkan specification (vkCmdCopyBuffer, vkCmdCopyImage,
vkCmdCopyBufferToImage, vkCmdCopyImageToBuffer, vkCmdBlitImage, vkCmdClear…Image, vkCmdFillBuffer, vkCmdPipelineBarrier,
VkAttachmentLoadOp, VkAttachmentStoreOp). What Vulkan leaves open, and what commands of the user do, are parameters
(`Device`): statements are made for all of them.
-/
namespace Verif.Gpu
open Verif.Rec

/-- A byte of an image: image, aspect bit, layer, level, texel coordinates, byte of the texel. -/
structure Cell where
  image : Nat
  aspect : Nat
  layer : Nat
  level : Nat
  x : Int
  y : Int
  z : Int
  byte : Nat
deriving DecidableEq, Repr

/-- Contents of images and buffers, by bytes. -/
structure Memory where
  image : Cell → Nat
  buffer : Nat → Nat → Nat

/-- The cell is in the box of the given corner and extent, in the base level and the layers of the subresource. -/
def Cell.InBox (c : Cell) (image : Nat) (sub : Range) (x y z : Int) (w h d : Nat) : Prop :=
  c.image = image ∧ sub.aspect.testBit c.aspect = true ∧ c.level = sub.baseMip
    ∧ sub.baseLayer ≤ c.layer ∧ c.layer < sub.baseLayer + sub.layers
    ∧ x ≤ c.x ∧ c.x < x + w ∧ y ≤ c.y ∧ c.y < y + h ∧ z ≤ c.z ∧ c.z < z + d

instance (c : Cell) (i s x y z w h d) : Decidable (c.InBox i s x y z w h d) := by unfold Cell.InBox; infer_instance

/-- Where a tightly packed buffer holds the texel at coordinates `(x, y, z)` of layer `l` (counted from the start of the
region), in texels. -/
def packed (w h d : Nat) (l x y z : Nat) : Nat := ((l * d + z) * h + y) * w + x

/-- What Vulkan leaves to the device, or the model does not know: bytes per texel, the bytes a clear value becomes, what is
found where contents were discarded, what a blit computes, what the commands of the user do. -/
structure Device where
  texelSize : Nat → Nat
  clear : Nat → Cell → Nat
  junk : Cell → Nat
  blit : Cmd → Memory → Cell → Nat
  user : Nat → Memory → Memory
  work : Nat → Memory → Memory

/-- The attachment is the one of the cell. -/
def PassAtt.IsOf (a : PassAtt) (c : Cell) : Prop := a.image = c.image ∧ Selects a.range c.aspect c.layer c.level

instance (a c) : Decidable (PassAtt.IsOf a c) := by unfold PassAtt.IsOf; infer_instance

/-- The command lets the device forget the contents of the cell: a barrier from layout UNDEFINED; the start of a render pass
from UNDEFINED, or that doesn't load the aspect (aspect bit 2 is stencil); the end of one that doesn't store it. -/
def Discards : Cmd → Cell → Prop
  | .imageBarrier img r _ _ old _, c => old = Layout.undefined ∧ c.image = img ∧ Selects r c.aspect c.layer c.level
  | .beginPass atts _ _ _, c => ∃ a ∈ atts, PassAtt.IsOf a c
      ∧ (a.initial = Layout.undefined ∨ (if c.aspect = 2 then a.loadsStencil else a.loads) = false)
  | .endPass atts, c => ∃ a ∈ atts, PassAtt.IsOf a c ∧ (if c.aspect = 2 then a.storesStencil else a.stores) = false
  | _, _ => False

instance (k : Cmd) (c : Cell) : Decidable (Discards k c) := by
  unfold Discards; split <;> infer_instance

/-- The value an attachment is cleared with at the start of a render pass, where it is: in the render area. -/
def clearedTo (w h layers : Nat) (c : Cell) (a : PassAtt) : Option Nat :=
  if c.InBox a.image { a.range with layers := layers } 0 0 0 w h 1 then
    if c.aspect = 2 then a.clearsStencil else a.clears
  else none

/-- The contents of images after forgetting. -/
def forget (dev : Device) (M : Memory) (k : Cmd) : Cell → Nat := fun c => if Discards k c then dev.junk c else M.image c

/-- Effect of a command on memory. (The size `VK_WHOLE_SIZE`, 2 ^ 64 - 1, is the rest of the buffer.) -/
def step (dev : Device) (M : Memory) : Cmd → Memory
  | .copyBuffer s d so dof n =>
    { M with buffer := fun b o => if b = d ∧ dof ≤ o ∧ o < dof + n then M.buffer s (so + (o - dof)) else M.buffer b o }
  | .copyImage s _ sr t _ tr w h d =>
    { M with image := fun c => if c.InBox t tr 0 0 0 w h d then
        M.image { c with image := s, layer := sr.baseLayer + (c.layer - tr.baseLayer), level := sr.baseMip }
      else M.image c }
  | .copyBufferToImage b o t _ tr x y z w h d =>
    { M with image := fun c => if c.InBox t tr x y z w h d ∧ c.byte < dev.texelSize t then
        M.buffer b (o + packed w h d (c.layer - tr.baseLayer) (c.x - x).toNat (c.y - y).toNat (c.z - z).toNat
          * dev.texelSize t + c.byte)
      else M.image c }
  | .copyImageToBuffer s _ sr x y z w h d b o =>
    { M with buffer := fun b' o' =>
        let n := dev.texelSize s
        let t := (o' - o) / n
        if b' = b ∧ o ≤ o' ∧ o' < o + sr.layers * d * h * w * n then
          M.image ⟨s, sr.aspect.log2, sr.baseLayer + t / (w * h * d), sr.baseMip, x + ((t % w : Nat) : Int),
            y + ((t / w % h : Nat) : Int), z + ((t / (w * h) % d : Nat) : Int), (o' - o) % n⟩
        else M.buffer b' o' }
  | .blitImage s sl sr sc t tl tr tc f =>
    { M with image := fun c =>
        if c.image = t ∧ Selects tr c.aspect c.layer c.level ∧ min tc.x0 tc.x1 ≤ c.x ∧ c.x < max tc.x0 tc.x1
            ∧ min tc.y0 tc.y1 ≤ c.y ∧ c.y < max tc.y0 tc.y1 ∧ min tc.z0 tc.z1 ≤ c.z ∧ c.z < max tc.z0 tc.z1 then
          dev.blit (.blitImage s sl sr sc t tl tr tc f) M c
        else M.image c }
  | .clearImage _ img _ r v =>
    { M with image := fun c => if c.image = img ∧ Selects r c.aspect c.layer c.level then dev.clear v c else M.image c }
  | .fillBuffer b off n =>
    { M with buffer := fun b' o => if b' = b ∧ off ≤ o ∧ (n = 2 ^ 64 - 1 ∨ o < off + n) then 0 else M.buffer b' o }
  | .beginPass atts w h layers =>
    { M with image := fun c => match atts.findSome? (clearedTo w h layers c) with
        | some v => dev.clear v c
        | none => forget dev M (.beginPass atts w h layers) c }
  | .endPass atts => { M with image := forget dev M (.endPass atts) }
  | .imageBarrier img r s d old new => { M with image := forget dev M (.imageBarrier img r s d old new) }
  | .bufferBarrier _ _ _ _ _ => M
  | .user k => dev.user k M
  | .work k => dev.work k M

/-- Effect of a stream. -/
def steps (dev : Device) (M : Memory) (cs : List Cmd) : Memory := cs.foldl (step dev) M

end Verif.Gpu
