import Verif.Spec.Mixed
import Verif.Spec.RenderPass
import Verif.Model.Mipmaps
/-
Vocabulary of C92 for the passes that draw.
-/
namespace Verif.RPass
open Verif.Rec Verif.Att Verif.Run Verif.Gpu

/-- The render targets a pass has at an index share nothing. -/
def TargetsApart (p : RunPass) (index : Nat) : Prop :=
  p.images.Pairwise fun a b => isTarget a = true → isTarget b = true →
    ∀ v w, a.img.view index = some v → b.img.view index = some w → View.Apart v w

/-- What an instance of a render pass object uses: its targets, left in its final layouts. -/
def drawUses (o : PassObj) : List ViewUse := o.entries.map fun e => ⟨e.view, e.output.layout⟩

end Verif.RPass

namespace Verif.Mip
open Verif.Rec Verif.Att Verif.Run Verif.Gpu

/-- One level of one layer of the image of a view. -/
def levelView (v : View) (layer level : Nat) : View :=
  { v with range := ⟨aspects v.image.format, level, 1, layer, 1⟩ }

/-- The first `n` levels of a layer, left in a layout. -/
def levelUses (v : View) (layer layout n : Nat) : List ViewUse :=
  (List.range' 0 n).map fun level => ⟨levelView v layer level, layout⟩

end Verif.Mip

namespace Verif.Run
open Verif.Rec Verif.Att Verif.Gpu Verif.RPass

/-- What the body of a pass, entered in the recording `r`, does: it makes the calls of `BodyDoes`; or it draws, with a render
pass object that is new or that still fits; or it makes the mipmaps of an image. `us` are the views it uses, with the layouts
they are left in. -/
inductive BodyUses (sepDS : Bool) (fmt : Nat → Nat) (G : GraphSt) (p : RunPass) (index : Nat) (r : Rec) :
    List ViewUse → Prop
  | does {us : List ViewUse} (h : BodyDoes sepDS fmt p index us) : BodyUses sepDS fmt G p index r us
  | draws {width height : Nat} {cached : Option PassObj} {draw : List Nat} {o : PassObj} {r' : Rec}
      (made : recordPass sepDS G width height p cached draw index r = some (o, r')) (body : p.body index r = r')
      (declares : Declares sepDS p) (apart : TargetsApart p index)
      (fits : ∀ q, cached = some q → MadeFor sepDS p index q ∧ Fits G r.ctx q)
      (stencil : StencilKnown G r.ctx p index cached) : BodyUses sepDS fmt G p index r (drawUses o)
  | mipmaps {v : View} {ty : ViewType} {en : Nat → Bool} {output : LayoutState}
      (body : p.body index r = Mip.generateMipmaps ⟨sepDS, en⟩ G p output v ty r)
      (kind : ty ≠ .d3) (levels : 2 ≤ v.image.mipLevels) :
      BodyUses sepDS fmt G p index r ((List.range' v.range.baseLayer v.range.layers).flatMap fun layer =>
        Mip.levelUses v layer (getNextLayoutState sepDS G r.ctx p v).layout v.image.mipLevels)

/-- One recording of passes that may use parts and wholes of images, `body` being what the bodies of the enabled ones use: the
views are ordinary, no implicit action is registered, the attachments of one pass that share something declare the same
layout. -/
structure MixedRun (sepDS : Bool) (fmt : Nat → Nat) (en : Nat → Bool) (index : Nat → Nat) (passes : List RunPass)
    (body : RunPass → List ViewUse) : Prop where
  plain : ∀ p ∈ passes, ∀ u ∈ attachUses sepDS (index p.id) p ++ body p,
    PlainView sepDS fmt u.view ∧ u.layout ≠ Layout.undefined
  alone : ∀ p ∈ passes, p.implicitActions = []
  agree : ∀ p ∈ passes, ∀ u ∈ attachUses sepDS (index p.id) p, ∀ w ∈ attachUses sepDS (index p.id) p,
    View.Apart u.view w.view ∨ u.layout = w.layout

end Verif.Run
