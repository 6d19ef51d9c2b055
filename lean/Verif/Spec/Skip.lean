import Verif.Spec.Bracket
/-
Leaving disabled passes out.
-/
namespace Verif.Skip
open Verif.Rec Verif.Run Verif.Gpu

/-- The bodies of the library's passes, drawing passes making their render pass, or calls on the context that don't depend on
what is announced. -/
inductive Body (sepDS : Bool) (G : GraphSt) (p : RunPass) : Prop
  | draws (w h : Nat) (draw : List Nat)
      (hb : ∀ index r, p.body index r = ((RPass.recordPass sepDS G w h p none draw index r).map (·.2)).getD r)
  | copies (en : Nat → Bool) (size : Xfer.Extent) (final : Nat)
      (h : ∀ index r, p.body index r = (Xfer.imageCopy ⟨sepDS, en⟩ p size final index r).getD r)
  | blits (srcOffset : Xfer.Offset) (srcSize : Xfer.Extent) (dstOffset : Xfer.Offset) (dstSize : Xfer.Extent) (filter : Nat)
      (h : ∀ index r, p.body index r = (Xfer.imageBlit p srcOffset srcSize dstOffset dstSize filter index r).getD r)
  | copiesBuffer (copyOffset copyRange : Nat)
      (h : ∀ index r, p.body index r = (Xfer.bufferCopy p copyOffset copyRange index r).getD r)
  | uploads (offset : Xfer.Offset) (size : Xfer.Extent)
      (h : ∀ index r, p.body index r = (Xfer.bufferToImage p offset size index r).getD r)
  | downloads (offset : Xfer.Offset) (size : Xfer.Extent)
      (h : ∀ index r, p.body index r = (Xfer.imageToBuffer p offset size index r).getD r)
  | mipmaps (en : Nat → Bool) (ty : ViewType) (output : LayoutState)
      (h : ∀ index r, p.body index r = match p.images.head? with
        | some a => match a.img.view index with
          | some v => Mip.generateMipmaps ⟨sepDS, en⟩ G p output v ty r
          | none => r
        | none => r)
  | uses (calls : Nat → List Call) (h : ∀ index r, p.body index r = performAll sepDS r (calls index))

/-- Two recordings are the same: commands, states tracked of images and buffers, pending transitions, initialised passes, and
what passes did. -/
structure SameFrame (f g : Frame) : Prop where
  cmds : f.recd.cmds = g.recd.cmds
  images : f.recd.ctx.images = g.recd.ctx.images
  buffers : f.recd.ctx.buffers = g.recd.ctx.buffers
  pending : f.recd.ctx.implicit = g.recd.ctx.implicit
  initialised : f.initialised = g.initialised
  log : f.log = g.log

end Verif.Skip
