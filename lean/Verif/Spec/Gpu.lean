import Verif.Model.RecordContext
import Verif.Spec.Layout
import Verif.Spec.Formats
/-
A GPU as far as image layouts are concerned: the specification side of the barrier properties. It interprets
recorded commands according to the Vulkan specification and knows nothing of the tracker.
-/
namespace Verif.Gpu
open Verif.Rec

/-- Layout of every (image, aspect bit, layer, mip). -/
abbrev Layouts := Nat → Nat → Nat → Nat → Nat

/-- The range selects aspect bit `a` of subresource `(l, m)`. -/
def Selects (r : Range) (a l m : Nat) : Prop := r.aspect.testBit a = true ∧ r.Has l m

instance (r a l m) : Decidable (Selects r a l m) := by unfold Selects; infer_instance

/-- All the aspects of a range of an image are put in a layout. -/
def put (g : Layouts) (img : Nat) (r : Range) (layout : Nat) : Layouts :=
  fun i a l m => if i = img ∧ r.Has l m then layout else g i a l m

/-- Effect of one command on layouts: an image barrier moves the selected subresources to its new layout; the start of a
render pass instance moves the referenced attachments to the layouts of their references, its end moves all the
attachments to their final layouts (both aspects of a depth/stencil image, VkFramebufferCreateInfo); the other commands
don't change layouts. -/
def exec (g : Layouts) : Cmd → Layouts
  | .beginPass atts _ _ _ => atts.foldl (fun g a => match a.during with | some l => put g a.image a.range l | none => g) g
  | .endPass atts => atts.foldl (fun g a => put g a.image a.range a.final) g
  | .imageBarrier img r _ _ _ new => fun i a l m => if i = img ∧ Selects r a l m then new else g i a l m
  | _ => g

/-- Execution of a stream. -/
def execAll (g : Layouts) (cs : List Cmd) : Layouts := cs.foldl exec g

/-- What Vulkan requires of a command when it executes. Image barriers (VUID-VkImageMemoryBarrier-oldLayout): the
old layout is UNDEFINED or the current layout of every selected subresource. Transfers and clears: the layout
they name is the current layout of the subresources they touch. Render passes (VUID-vkCmdBeginRenderPass-initialLayout,
VUID-VkAttachmentDescription-finalLayout-00843, -format-06699, -06700): each initial layout is UNDEFINED or the current
layout of the attachment, nothing is loaded from an attachment in layout UNDEFINED, and no final layout is UNDEFINED. -/
def Valid (g : Layouts) : Cmd → Prop
  | .imageBarrier img r _ _ old _ => old = Layout.undefined ∨ ∀ a l m, Selects r a l m → g img a l m = old
  | .clearImage _ img lay r _ => ∀ a l m, Selects r a l m → g img a l m = lay
  | .copyBufferToImage _ _ img lay r _ _ _ _ _ _ | .copyImageToBuffer img lay r _ _ _ _ _ _ _ _ =>
    ∀ a l m, Selects r a l m → g img a l m = lay
  | .copyImage s sl sr d dl dr _ _ _ | .blitImage s sl sr _ d dl dr _ _ =>
    (∀ a l m, Selects sr a l m → g s a l m = sl) ∧ (∀ a l m, Selects dr a l m → g d a l m = dl)
  | .beginPass atts _ _ _ => ∀ x ∈ atts, (x.initial = Layout.undefined ∨ ∀ a l m, Selects x.range a l m → g x.image a l m = x.initial)
    ∧ (x.loads = true ∨ x.loadsStencil = true → x.initial ≠ Layout.undefined) ∧ x.final ≠ Layout.undefined
  | _ => True

/-- Every command is valid when it executes. -/
def StreamValid : Layouts → List Cmd → Prop
  | _, [] => True
  | g, c :: cs => Valid g c ∧ StreamValid (exec g c) cs

/-- An image barrier request made by the user of a recording context: the arguments of
`RecordContext::memoryBarrier( commandBuffer, image, viewType, subresourceRange, initialLayout, wantedState,
force )`. -/
structure Request where
  img : Image
  vt : ViewType
  sub : Range
  initial : Nat
  wanted : LayoutState
  force : Bool
deriving DecidableEq, Repr

/-- Make a request. -/
def request (env : Env) (r : Rec) (q : Request) : Rec :=
  r.imageBarrier env q.img q.vt q.sub q.initial q.wanted q.force

/-- Make requests one after the other. -/
def requests (env : Env) (r : Rec) (qs : List Request) : Rec := qs.foldl (request env) r

/-- A recording that just started. -/
def start : Rec := ⟨Ctx.new, []⟩

/-- The aspect bits name every aspect of the format: directly, or (when the device has no separate depth/stencil
layouts) by naming one aspect of a combined depth/stencil format, which stands for both. -/
def WholeAspect (sepDS : Bool) (format aspect : Nat) : Prop :=
  aspect = aspects format
    ∨ (sepDS = false ∧ aspects format = 6 ∧ (aspect = Aspect.depth ∨ aspect = Aspect.stencil))

instance (d f a) : Decidable (WholeAspect d f a) := by unfold WholeAspect; infer_instance

/-- Ordinary requests: not through a 3D view (whose slices the tracker numbers as layers), all the aspects of
the image's format at once, and an actual layout wanted. `fmt` gives the format of each image. -/
structure Ordinary (env : Env) (fmt : Nat → Nat) (q : Request) : Prop where
  format : q.img.format = fmt q.img.id
  view : q.vt ≠ .d3
  aspect : WholeAspect env.sepDS q.img.format q.sub.aspect
  wanted : q.wanted.layout ≠ Layout.undefined

/-- `bit` is an aspect of the image with this format. -/
def HasAspect (format bit : Nat) : Prop := (aspects format).testBit bit = true

end Verif.Gpu
