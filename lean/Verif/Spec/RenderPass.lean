import Verif.Model.RenderPass
import Verif.Spec.Graph
/-
Specification vocabulary of the render passes: which attachment each part of a render pass object comes from.
-/
namespace Verif.RPass
open Verif.Rec Verif.Att Verif.Run Verif.Gpu

/-- Depth and stencil attachments share the one reference Vulkan has for them. -/
def isDS (a : Attachment) : Bool := isDepthAttach a || isStencilAttach a

/-- The `k`-th render target, among `ts`, is one the subpass draws to: a colour attachment, or the only depth or stencil
attachment. -/
def Drawn (ts : List (Attachment × View)) (k : Nat) : Prop :=
  ∃ av, ts[k]? = some av ∧ (isDS av.1 = true → ∀ j bw, ts[j]? = some bw → isDS bw.1 = true → j = k)

/-- The render targets of a pass with the view each has at an index. -/
structure Targets (p : RunPass) (index : Nat) (ts : List (Attachment × View)) : Prop where
  all : ts.map (·.1) = p.images.filter isTarget
  view : ∀ av ∈ ts, av.1.img.view index = some av.2

/-- Every part of a render pass object comes from the render target at its position: the description, the entry the
holder remembers, the framebuffer view and the references. -/
structure Corresponds (sepDS : Bool) (o : PassObj) (ts : List (Attachment × View)) : Prop where
  descs : o.descs.length = ts.length
  entries : o.entries.length = ts.length
  views : o.views = ts.map (·.2)
  at' : ∀ (k : Nat) (av : Attachment × View), ts[k]? = some av → ∃ e d, o.entries[k]? = some e ∧ o.descs[k]? = some d ∧
    e.view = av.2 ∧ d.format = av.2.format
    ∧ d.initial = e.input.layout ∧ d.final = e.output.layout
    ∧ d.loadOp = (if e.input.layout = Layout.undefined then LoadOp.clear else av.1.img.loadOp)
    ∧ d.storeOp = av.1.img.storeOp ∧ d.stencilLoadOp = av.1.img.stencilLoadOp
    ∧ d.stencilStoreOp = av.1.img.stencilStoreOp
    ∧ (av.1.isInput = false → e.input.layout = Layout.undefined)
    ∧ e.output.layout ≠ Layout.undefined
  /-- One clear value per target: the declared one. -/
  clears : o.clears = ts.map (·.1.img.clearValue)
  /-- One blend state per colour target, in their order: the declared one. -/
  blends : o.blends = (ts.filter fun av => !isDS av.1).map (·.1.img.blend)
  colours : ∀ ref, ref ∈ o.colours ↔ ∃ k av, ts[k]? = some av ∧ isDS av.1 = false ∧ ref = ⟨k, av.1.getImageLayout sepDS⟩
  /-- The colour references are in the order of the attachments. -/
  order : o.colours.Pairwise fun a b => a.attachment < b.attachment
  noDepth : (∀ av ∈ ts, isDS av.1 = false) → o.depth.layout = Layout.undefined
  depth : ∀ k av, ts[k]? = some av → isDS av.1 = true → (∀ j bw, ts[j]? = some bw → isDS bw.1 = true → j ≤ k) →
    o.depth = ⟨k, av.1.getImageLayout sepDS⟩

/-- Every attachment of the pass asks for a layout, and every view it may have selects a subresource. -/
def Declares (sepDS : Bool) (p : RunPass) : Prop :=
  ∀ a ∈ p.images, a.getImageLayout sepDS ≠ Layout.undefined
    ∧ ∀ v ∈ a.img.views, ∃ sub, Designates v.image v.viewType v.range sub ∧ sub.NonEmpty

/-- A render pass object the holder made for this pass and index, at any time, in any context. -/
def MadeFor (sepDS : Bool) (p : RunPass) (index : Nat) (o : PassObj) : Prop :=
  ∃ G c c' w h, initialise sepDS G w h p index none c = some (o, true, c')

/-- What Vulkan requires of a stencil load operation: there is something to load. The target is an input and, if the
object is new, the graph knows a layout of the image; if it is reused, it was made with one. -/
def StencilKnown (G : GraphSt) (c : Ctx) (p : RunPass) (index : Nat) (cached : Option PassObj) : Prop :=
  ∀ a ∈ p.images, isTarget a = true → a.img.stencilLoadOp = LoadOp.load → ∀ v, a.img.view index = some v →
    (aspects v.format).testBit 2 = true → a.isInput = true
    ∧ (∀ l m, v.range.Has l m → known c G v.image.id l m ≠ none)
    ∧ ∀ o, cached = some o → ∀ e ∈ o.entries, e.view = v → e.input.layout ≠ Layout.undefined

/-- The object still fits the images the recording tracks nothing of: the layout it expects them in is UNDEFINED or
the one the graph knows from the inputs or from the previous execution. (For images the recording tracks,
`initialise` compares itself.) -/
def Fits (G : GraphSt) (c : Ctx) (o : PassObj) : Prop :=
  ∀ e ∈ o.entries, (∀ l m, e.view.range.Has l m → c.images.at e.view.image.id l m = none) →
    e.input.layout = Layout.undefined
    ∨ ∀ l m, e.view.range.Has l m → ∃ s, known c G e.view.image.id l m = some s ∧ s.layout = e.input.layout

/-- The pass draws: its body is `RenderPass::doRecordInto` with the objects `cached` (by index) made by earlier frames
and the draw commands `draw`. -/
def Renders (sepDS : Bool) (G : GraphSt) (p : RunPass) (cached : Nat → Option PassObj) : Prop :=
  ∃ w h draw, ∀ index r, p.body index r = ((recordPass sepDS G w h p (cached index) draw index r).map (·.2)).getD r

end Verif.RPass
