import Verif.Spec.Library
/-
When the render pass instances of a command buffer are well formed (Vulkan: `vkCmdBeginRenderPass` only outside a render
pass instance, `vkCmdEndRenderPass` only inside one; barriers, copies, blits, clears of images and fills of buffers only
outside).
-/
namespace Verif.Brk
open Verif.Rec Verif.Run Verif.Gpu

/-- Begins a render pass instance. -/
def Begins : Cmd → Bool
  | .beginPass .. => true
  | _ => false

/-- Ends a render pass instance. -/
def Ends : Cmd → Bool
  | .endPass .. => true
  | _ => false

/-- A command that may be recorded inside a render pass instance: those of the callbacks. -/
def Inside : Cmd → Bool
  | .user _ => true
  | .work _ => true
  | _ => false

/-- Well formed command buffers: commands outside of any render pass instance, and whole instances: the begin, commands
allowed inside, the end of the same render pass. -/
inductive WellFormed : List Cmd → Prop
  | nil : WellFormed []
  | outside (c : Cmd) (cs : List Cmd) (hb : Begins c = false) (he : Ends c = false) (h : WellFormed cs) : WellFormed (c :: cs)
  | instance' (atts : List PassAtt) (w h layers : Nat) (inner cs : List Cmd) (hi : ∀ c ∈ inner, Inside c = true)
      (hc : WellFormed cs) : WellFormed (.beginPass atts w h layers :: (inner ++ .endPass atts :: cs))

/-- Well formed command buffers, with what is recorded inside each render pass instance, in order. -/
inductive Instances : List Cmd → List (List Cmd) → Prop
  | nil : Instances [] []
  | outside (c : Cmd) (cs : List Cmd) (is : List (List Cmd)) (hb : Begins c = false) (he : Ends c = false)
      (h : Instances cs is) : Instances (c :: cs) is
  | instance' (atts : List PassAtt) (w h layers : Nat) (inner cs : List Cmd) (is : List (List Cmd))
      (hi : ∀ c ∈ inner, Inside c = true) (hc : Instances cs is) :
      Instances (.beginPass atts w h layers :: (inner ++ .endPass atts :: cs)) (inner :: is)

/-- How many of the commands begin an instance. -/
def begun (cs : List Cmd) : Nat := (cs.filter Begins).length

/-- How many of the commands end one. -/
def ended (cs : List Cmd) : Nat := (cs.filter Ends).length

/-- What the pass records when it is run: one of the passes of the library (drawing, with whatever render pass objects it
kept; copying or blitting; making mipmaps), or a pass of the user whose callback makes calls to the recording context and
records work of its own, no render pass instance. For a drawing pass, the draw commands of its callback are given. -/
inductive Body (sepDS : Bool) (G : GraphSt) (p : RunPass) : Option (List Nat) → Prop
  | draws (cached : Nat → Option RPass.PassObj) (w h : Nat) (draw : List Nat)
      (hb : ∀ index r, p.body index r = ((RPass.recordPass sepDS G w h p (cached index) draw index r).map (·.2)).getD r) :
      Body sepDS G p (some draw)
  | copies (en : Nat → Bool) (size : Xfer.Extent) (final : Nat)
      (h : ∀ index r, p.body index r = (Xfer.imageCopy ⟨sepDS, en⟩ p size final index r).getD r) : Body sepDS G p none
  | blits (srcOffset : Xfer.Offset) (srcSize : Xfer.Extent) (dstOffset : Xfer.Offset) (dstSize : Xfer.Extent) (filter : Nat)
      (h : ∀ index r, p.body index r = (Xfer.imageBlit p srcOffset srcSize dstOffset dstSize filter index r).getD r) :
      Body sepDS G p none
  | copiesBuffer (copyOffset copyRange : Nat)
      (h : ∀ index r, p.body index r = (Xfer.bufferCopy p copyOffset copyRange index r).getD r) : Body sepDS G p none
  | uploads (offset : Xfer.Offset) (size : Xfer.Extent)
      (h : ∀ index r, p.body index r = (Xfer.bufferToImage p offset size index r).getD r) : Body sepDS G p none
  | downloads (offset : Xfer.Offset) (size : Xfer.Extent)
      (h : ∀ index r, p.body index r = (Xfer.imageToBuffer p offset size index r).getD r) : Body sepDS G p none
  | mipmaps (ty : ViewType) (output : LayoutState)
      (h : ∀ index r, ∃ en, p.body index r = match p.images.head? with
        | some a => match a.img.view index with
          | some v => Mip.generateMipmaps ⟨sepDS, en⟩ G p output v ty r
          | none => r
        | none => r) : Body sepDS G p none
  | uses (h : ∀ index r, ∃ calls, p.body index r = performAll sepDS r calls) : Body sepDS G p none

end Verif.Brk
