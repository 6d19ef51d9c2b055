import Verif.Spec.Bracket
import Verif.Spec.Mipmaps
/-
When a command is legal on the images it names (Vulkan valid usage of barriers, copies, blits, clears and framebuffers, apart
from layouts): the subresources exist, the aspects are those of the format, regions are inside of the level, filtering is only
used where it may be. And what a user has to declare for that.
-/
namespace Verif.Use
open Verif.Rec Verif.Run Verif.Gpu Verif.Att

/-- The images, by id. -/
abbrev Images := Nat → Image

/-- The range is not empty, its levels and layers are levels and layers of the image, its aspects are aspects of its format. -/
def Names (i : Image) (r : Range) : Prop :=
  1 ≤ r.levels ∧ r.baseMip + r.levels ≤ i.mipLevels ∧ 1 ≤ r.layers ∧ r.baseLayer + r.layers ≤ i.arrayLayers
    ∧ r.aspect ≠ 0 ∧ ∀ b, r.aspect.testBit b = true → HasAspect i.format b

/-- Not depth, not stencil. -/
def Coloured (i : Image) : Prop := aspects i.format = 1

/-- A corner is a corner of some texel of the level. -/
def Within (i : Image) (level : Nat) (x y z : Int) : Prop :=
  0 ≤ x ∧ x ≤ Mip.levelSize i.width level ∧ 0 ≤ y ∧ y ≤ Mip.levelSize i.height level ∧ 0 ≤ z ∧ z ≤ Mip.levelSize i.depth level

/-- The box is inside of the level. -/
def Fits (i : Image) (level : Nat) (x y z : Int) (w h d : Nat) : Prop :=
  Within i level x y z ∧ Within i level (x + w) (y + h) (z + d)

/-- Both corners are in the level. -/
def Spans (i : Image) (level : Nat) (c : Corners) : Prop := Within i level c.x0 c.y0 c.z0 ∧ Within i level c.x1 c.y1 c.z1

/-- Filtering is only for colours, and only colours change format. -/
def Filterable (s d : Image) (filter : Nat) : Prop :=
  (Coloured s ↔ Coloured d) ∧ (¬ Coloured s → filter = 0 ∧ s.format = d.format)

/-- Legal commands. `sepDS`: depth and stencil may have different layouts. -/
def Legal (sepDS : Bool) (S : Images) : Cmd → Prop
  | .imageBarrier i r _ _ _ _ => Names (S i) r ∧ (sepDS = false → aspects (S i).format = 6 → r.aspect = 6)
  | .copyImage s _ sr d _ dr w h dp =>
    Names (S s) sr ∧ Names (S d) dr ∧ sr.levels = 1 ∧ dr.levels = 1 ∧ sr.layers = dr.layers ∧ sr.aspect = dr.aspect
      ∧ Fits (S s) sr.baseMip 0 0 0 w h dp ∧ Fits (S d) dr.baseMip 0 0 0 w h dp
  | .blitImage s _ sr sc d _ dr dc filter =>
    Names (S s) sr ∧ Names (S d) dr ∧ sr.levels = 1 ∧ dr.levels = 1 ∧ sr.layers = dr.layers ∧ sr.aspect = dr.aspect
      ∧ Spans (S s) sr.baseMip sc ∧ Spans (S d) dr.baseMip dc ∧ Filterable (S s) (S d) filter
  | .clearImage colour i _ r _ => Names (S i) r ∧ (colour = true ↔ Coloured (S i))
  | .copyBufferToImage _ _ i _ r x y z w h d => Names (S i) r ∧ r.levels = 1 ∧ (∃ b, r.aspect = 2 ^ b) ∧ Fits (S i) r.baseMip x y z w h d
  | .copyImageToBuffer i _ r x y z w h d _ _ => Names (S i) r ∧ r.levels = 1 ∧ (∃ b, r.aspect = 2 ^ b) ∧ Fits (S i) r.baseMip x y z w h d
  | .fillBuffer _ off size => off % 4 = 0 ∧ (size = 2 ^ 64 - 1 ∨ (size % 4 = 0 ∧ 0 < size))
  | .beginPass atts _ _ _ => ∀ a ∈ atts, Names (S a.image) a.range ∧ a.range.levels = 1
  | .endPass atts => ∀ a ∈ atts, Names (S a.image) a.range ∧ a.range.levels = 1
  | .bufferBarrier .. | .copyBuffer .. | .user _ | .work _ => True

/-! ### What is declared -/

/-- A view of an existing image, whose format is one for the image. -/
def ViewOk (S : Images) (v : View) : Prop :=
  v.image = S v.image.id ∧ Names v.image v.range ∧ (aspects v.format = 1 ↔ Coloured v.image)

/-- Regions of substitutes. -/
def ActionOk (S : Images) : Action → Prop
  | .nothing | .user _ => True
  | .copy s d w h _ => ViewOk S s ∧ ViewOk S d ∧ s.range.aspect = d.range.aspect
      ∧ Fits s.image s.range.baseMip 0 0 0 w h 1 ∧ Fits d.image d.range.baseMip 0 0 0 w h 1
  | .blit s d sx sy sw sh dx dy dw dh filter _ => ViewOk S s ∧ ViewOk S d ∧ s.range.aspect = d.range.aspect
      ∧ Spans s.image s.range.baseMip ⟨sx, sy, 0, sw, sh, 1⟩ ∧ Spans d.image d.range.baseMip ⟨dx, dy, 0, dw, dh, 1⟩
      ∧ Filterable s.image d.image filter
  | .clear d _ _ => ViewOk S d

/-- Calls of the callback of a pass. -/
def CallOk (S : Images) : Call → Prop
  | .barrier v _ _ _ => ViewOk S v
  | .register t => ActionOk S t.action
  | _ => True

/-- The images a copy pass copies, two by two. -/
def PairsOk (size : Xfer.Extent) (index : Nat) : List Attachment → Prop
  | a :: b :: rest => (∀ s t, a.img.view index = some s → b.img.view index = some t →
      s.range.aspect = t.range.aspect ∧ s.range.layers = t.range.layers
        ∧ Fits s.image s.range.baseMip 0 0 0 size.w size.h size.d ∧ Fits t.image t.range.baseMip 0 0 0 size.w size.h size.d)
      ∧ PairsOk size index rest
  | _ => True

/-- The attachments of a kept render pass object. -/
def ObjectOk (S : Images) (o : RPass.PassObj) : Prop := ∀ a ∈ o.atts, Names (S a.image) a.range ∧ a.range.levels = 1

/-- What the body of a pass does, with legal parameters. -/
inductive BodyOk (sepDS : Bool) (S : Images) (G : GraphSt) (p : RunPass) : Prop
  | draws (cached : Nat → Option RPass.PassObj) (w h : Nat) (draw : List Nat)
      (hc : ∀ index o, cached index = some o → ObjectOk S o)
      (ht : ∀ a ∈ p.images, RPass.isTarget a = true → ∀ index v, a.img.view index = some v → v.range.levels = 1)
      (hb : ∀ index r, p.body index r = ((RPass.recordPass sepDS G w h p (cached index) draw index r).map (·.2)).getD r)
  | copies (en : Nat → Bool) (size : Xfer.Extent) (final : Nat) (hp : ∀ index, PairsOk size index p.images)
      (h : ∀ index r, p.body index r = (Xfer.imageCopy ⟨sepDS, en⟩ p size final index r).getD r)
  | blits (so : Xfer.Offset) (ss : Xfer.Extent) (dO : Xfer.Offset) (ds : Xfer.Extent) (filter : Nat)
      (hp : ∀ index, ∀ a ∈ p.images.head?, ∀ b ∈ p.images.getLast?, ∀ s t, a.img.view index = some s → b.img.view index = some t →
        s.range.aspect = t.range.aspect ∧ s.range.layers = t.range.layers
          ∧ Spans s.image s.range.baseMip ⟨so.x, so.y, so.z, ss.w, ss.h, ss.d⟩
          ∧ Spans t.image t.range.baseMip ⟨dO.x, dO.y, dO.z, ds.w, ds.h, ds.d⟩ ∧ Filterable s.image t.image filter)
      (h : ∀ index r, p.body index r = (Xfer.imageBlit p so ss dO ds filter index r).getD r)
  | copiesBuffer (copyOffset copyRange : Nat)
      (h : ∀ index r, p.body index r = (Xfer.bufferCopy p copyOffset copyRange index r).getD r)
  | uploads (offset : Xfer.Offset) (size : Xfer.Extent)
      (hp : ∀ a ∈ p.images.getLast?, ∀ index v, a.img.view index = some v →
        (∃ b, v.range.aspect = 2 ^ b) ∧ Fits v.image v.range.baseMip offset.x offset.y offset.z size.w size.h size.d)
      (h : ∀ index r, p.body index r = (Xfer.bufferToImage p offset size index r).getD r)
  | downloads (offset : Xfer.Offset) (size : Xfer.Extent)
      (hp : ∀ a ∈ p.images.getLast?, ∀ index v, a.img.view index = some v →
        (∃ b, v.range.aspect = 2 ^ b) ∧ Fits v.image v.range.baseMip offset.x offset.y offset.z size.w size.h size.d)
      (h : ∀ index r, p.body index r = (Xfer.imageToBuffer p offset size index r).getD r)
  | mipmaps (ty : ViewType) (output : LayoutState)
      (hp : ∀ a ∈ p.images.head?, ∀ index v, a.img.view index = some v → Coloured v.image)
      (h : ∀ index r, ∃ en, p.body index r = match p.images.head? with
        | some a => match a.img.view index with
          | some v => Mip.generateMipmaps ⟨sepDS, en⟩ G p output v ty r
          | none => r
        | none => r)
  | uses (h : ∀ index r, ∃ calls, (∀ c ∈ calls, CallOk S c) ∧ p.body index r = performAll sepDS r calls)

/-- A pass: views of existing images, buffers that are not empty, substitutes and a body with legal parameters. -/
structure PassOk (sepDS : Bool) (S : Images) (G : GraphSt) (p : RunPass) : Prop where
  views : ∀ a ∈ p.images, ∀ index v, a.img.view index = some v → ViewOk S v
  buffers : ∀ a ∈ p.buffers, 0 < a.buf.size
  actions : ∀ va ∈ p.implicitActions, ActionOk S va.2
  body : BodyOk sepDS S G p

end Verif.Use
