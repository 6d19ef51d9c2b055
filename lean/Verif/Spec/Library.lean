import Verif.Spec.RenderPass
import Verif.Spec.Transfer
import Verif.Spec.Mipmaps
/-
The kinds of pass the library provides, as bodies of passes of a graph.
-/
namespace Verif.Lib
open Verif.Rec Verif.Att Verif.Run Verif.Gpu

/-- The pass is a mipmap generation pass: its first attachment is one the graph moves, over all the levels of an image of
several levels. -/
structure MakesMipmaps (sepDS : Bool) (G : GraphSt) (p : RunPass) (ty : ViewType) (output : LayoutState) : Prop where
  body : ∀ index r, ∃ en, p.body index r = match p.images.head? with
    | some a => match a.img.view index with
      | some v => Mip.generateMipmaps ⟨sepDS, en⟩ G p output v ty r
      | none => r
    | none => r
  kind : ty ≠ .d3
  declared : ∀ a, p.images.head? = some a → moved a = true ∧ ∀ v ∈ a.img.views,
    v.range.baseMip = 0 ∧ v.range.levels = v.image.mipLevels ∧ 2 ≤ v.image.mipLevels

/-- The layout announced for the first view of the pass is a real one, and not a transfer layout. -/
def Announces (sepDS : Bool) (G : GraphSt) (p : RunPass) (index : Nat) (r : Rec) : Prop :=
  ∀ a, p.images.head? = some a → ∀ v, a.img.view index = some v →
    (getNextLayoutState sepDS G r.ctx p v).layout ≠ Layout.undefined
    ∧ (getNextLayoutState sepDS G r.ctx p v).layout ≠ Layout.transferSrc
    ∧ (getNextLayoutState sepDS G r.ctx p v).layout ≠ Layout.transferDst

/-- The kinds of passes: drawing (with the render pass objects kept per index), transferring, making mipmaps, or any pass
of the user that only uses the recording context. -/
inductive Kind (sepDS : Bool) (G : GraphSt) (V : View → Prop) (passes : List RunPass) (cached : Nat → Option RPass.PassObj)
    (p : RunPass) : Prop
  | draws (h : RPass.Renders sepDS G p cached) (d : RPass.Declares sepDS p)
  | transfers (h : Xfer.Transfers sepDS p)
  | mipmaps (ty : ViewType) (output : LayoutState) (h : MakesMipmaps sepDS G p ty output)
  | uses (h : ∀ index r, ∃ calls, (∀ c ∈ calls, BodyCall V passes c) ∧ p.body index r = performAll sepDS r calls)

end Verif.Lib
