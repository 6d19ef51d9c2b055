import Verif.Spec.Library
import Verif.Props.RenderPass
import Verif.Spec.Memory
/-
Accesses of images and what barriers order: the specification side of C97. Flags are those of Vulkan.
-/
namespace Verif.Haz
open Verif.Rec Verif.Att Verif.Run Verif.Gpu

/-- All the flags of `a` are among those of `b`. -/
def Among (a b : Nat) : Prop := a &&& b = a

instance (a b : Nat) : Decidable (Among a b) := inferInstanceAs (Decidable (a &&& b = a))

/-- The accesses and stages of `small` are among those of `big`. -/
def Covers (big small : AccessState) : Prop := Among small.stage big.stage ∧ Among small.access big.access

instance (a b : AccessState) : Decidable (Covers a b) := inferInstanceAs (Decidable (_ ∧ _))

/-- What a transfer command does when it reads: `VK_ACCESS_TRANSFER_READ_BIT` in `VK_PIPELINE_STAGE_TRANSFER_BIT`. -/
def transferRead : AccessState := ⟨0x800, 0x1000⟩
/-- What a transfer command does when it writes: `VK_ACCESS_TRANSFER_WRITE_BIT` in `VK_PIPELINE_STAGE_TRANSFER_BIT`. -/
def transferWrite : AccessState := ⟨0x1000, 0x1000⟩
/-- What sampling in a fragment shader does: `VK_ACCESS_SHADER_READ_BIT` in `VK_PIPELINE_STAGE_FRAGMENT_SHADER_BIT`. -/
def sampling : AccessState := ⟨0x20, 0x80⟩

/-- The three ways images are used here, each in its own layout. -/
def usual : List LayoutState :=
  [⟨Layout.transferSrc, transferRead⟩, ⟨Layout.transferDst, transferWrite⟩, ⟨Layout.shaderReadOnly, sampling⟩]

/-- The command, a transfer, reads the aspect `a` of level `m` of layer `l` of image `i`. -/
def Reads (i a l m : Nat) : Cmd → Prop
  | .copyImage s _ sr _ _ _ _ _ _ | .blitImage s _ sr _ _ _ _ _ _ | .copyImageToBuffer s _ sr _ _ _ _ _ _ _ _ => i = s ∧ Selects sr a l m
  | _ => False

/-- The command, a transfer or a clear, writes it. -/
def Writes (i a l m : Nat) : Cmd → Prop
  | .copyImage _ _ _ d _ dr _ _ _ | .blitImage _ _ _ _ d _ dr _ _ | .copyBufferToImage _ _ d _ dr _ _ _ _ _ _
  | .clearImage _ d _ dr _ => i = d ∧ Selects dr a l m
  | _ => False

/-- What the command does to it, if it is such a command: `w` tells whether it writes or reads. -/
def Does (i a l m : Nat) (w : Bool) (k : Cmd) : Prop := if w then Writes i a l m k else Reads i a l m k

/-- The accesses of a transfer. -/
def scope (w : Bool) : AccessState := if w then transferWrite else transferRead

/-- The two scopes of an image barrier on the subresource. -/
def scopes (i a l m : Nat) : Cmd → Option (AccessState × AccessState)
  | .imageBarrier img r src dst _ _ => if img = i ∧ Selects r a l m then some (src, dst) else none
  | _ => none

/-- The scopes of the barriers on the subresource among the commands, in order. -/
def barriers (i a l m : Nat) (cs : List Cmd) : List (AccessState × AccessState) := cs.filterMap (scopes i a l m)

/-- The command takes the subresource from layout UNDEFINED, forgetting what it holds. -/
def Forgets (i a l m : Nat) : Cmd → Prop
  | .imageBarrier img r _ _ old _ => old = Layout.undefined ∧ img = i ∧ Selects r a l m
  | _ => False

/-- The scope has a stage a later barrier can wait for: `VK_PIPELINE_STAGE_BOTTOM_OF_PIPE_BIT` (0x2000), in a destination
scope, is none. -/
def HasStage (s : AccessState) : Prop := s.stage ≠ 0 ∧ s.stage &&& 0x2000 = 0

instance (s : AccessState) : Decidable (HasStage s) := inferInstanceAs (Decidable (_ ∧ _))

/-- With these barriers between them, in this order, the accesses `t` wait for the accesses `s` and see what they wrote:
there is at least a barrier, the first one waits for `s` (and makes it available), each other one waits for all that the
previous one let wait, and the last one lets wait `t` (and makes visible to it). -/
def Ordered : AccessState → List (AccessState × AccessState) → AccessState → Prop
  | _, [], _ => False
  | s, [b], t => Covers b.1 s ∧ Covers b.2 t
  | s, b :: b' :: bs, t => Covers b.1 s ∧ HasStage b.2 ∧ Ordered b.2 (b' :: bs) t

instance : ∀ (s : AccessState) (bs : List (AccessState × AccessState)) (t : AccessState), Decidable (Ordered s bs t)
  | _, [], _ => isFalse fun h => h
  | _, [_], _ => inferInstanceAs (Decidable (_ ∧ _))
  | s, b :: b' :: bs, t =>
    have := instDecidableOrdered b.2 (b' :: bs) t
    inferInstanceAs (Decidable (Covers b.1 s ∧ HasStage b.2 ∧ Ordered b.2 (b' :: bs) t))

/-- A layout given to leave images in: none, or one of the three usual ones. -/
def EndsWell (layout : Nat) : Prop := layout = Layout.undefined ∨ ∃ s ∈ usual, s.layout = layout

/-- The action leaves image `i`, if it writes it, in a usual layout. -/
def ActionWell (i : Nat) : Action → Prop
  | .copy _ d _ _ final | .blit _ d _ _ _ _ _ _ _ _ _ final | .clear d _ final => d.image.id = i → EndsWell final
  | _ => True

/-- The call, made by the body of a pass, asks for usual states for image `i`. -/
def CallWell (i : Nat) : Call → Prop
  | .barrier v initial w _ => v.image.id = i → w ∈ usual ∧ EndsWell initial
  | .register t => ActionWell i t.action
  | _ => True

/-- What the body of a pass does to image `i`: the passes of the library and the passes that use the recording context, as
long as they leave the image in usual states. -/
inductive BodyWell (sepDS : Bool) (G : GraphSt) (i : Nat) (cached : Nat → Option RPass.PassObj) (p : RunPass) : Prop
  | draws (h : RPass.Renders sepDS G p cached) (d : RPass.Declares sepDS p)
  | copies (en : Nat → Bool) (size : Xfer.Extent) (final : Nat)
      (body : ∀ index r, p.body index r = (Xfer.imageCopy ⟨sepDS, en⟩ p size final index r).getD r)
      (ends : (∃ a ∈ p.images, ∃ v ∈ a.img.views, v.image.id = i) → EndsWell final)
  | blits (srcOffset : Xfer.Offset) (srcSize : Xfer.Extent) (dstOffset : Xfer.Offset) (dstSize : Xfer.Extent) (filter : Nat)
      (body : ∀ index r, p.body index r = (Xfer.imageBlit p srcOffset srcSize dstOffset dstSize filter index r).getD r)
  | copiesBuffers (copyOffset copyRange : Nat)
      (body : ∀ index r, p.body index r = (Xfer.bufferCopy p copyOffset copyRange index r).getD r)
  | uploads (offset : Xfer.Offset) (size : Xfer.Extent)
      (body : ∀ index r, p.body index r = (Xfer.bufferToImage p offset size index r).getD r)
  | downloads (offset : Xfer.Offset) (size : Xfer.Extent)
      (body : ∀ index r, p.body index r = (Xfer.imageToBuffer p offset size index r).getD r)
  | mipmaps (ty : ViewType) (output : LayoutState) (h : Lib.MakesMipmaps sepDS G p ty output)
  | uses (h : ∀ index r, ∃ calls, (∀ c ∈ calls, CallWell i c) ∧ p.body index r = performAll sepDS r calls)

/-- The states in a map for image `i` are usual ones. -/
def MapWell (i : Nat) (map : LayoutMap) : Prop := ∀ l m s, map.at i l m = some s → s ∈ usual

/-- The state has a usual layout, with exactly the accesses of sampling if that is the layout of sampling. (An attachment of a
transfer both in and out declares both accesses, in layout TRANSFER_DST.) -/
def Near (s : LayoutState) : Prop := (∃ t ∈ usual, t.layout = s.layout) ∧ (s.layout = Layout.shaderReadOnly → s.state = sampling)

instance (s : LayoutState) : Decidable (Near s) := inferInstanceAs (Decidable (_ ∧ _))

/-- The states in a map for image `i` are such. -/
def MapNear (i : Nat) (map : LayoutMap) : Prop := ∀ l m s, map.at i l m = some s → Near s

/-- The passes only transfer and sample image `i`: none draws to it, those it is attached to declare it for transfers, or for
sampling in the fragment shader, and leave it so. -/
structure MovesOnly (sepDS : Bool) (G : GraphSt) (i : Nat) (cached : Nat → Nat → Option RPass.PassObj) (passes : List RunPass) :
    Prop where
  targets : ∀ p ∈ passes, ∀ a ∈ p.images, RPass.isTarget a = true → ∀ v ∈ a.img.views, v.image.id ≠ i
  declared : ∀ p ∈ passes, ∀ a ∈ p.images, ∀ v ∈ a.img.views, v.image.id = i →
    Near ⟨a.getImageLayout sepDS, ⟨a.getAccessMask, a.getPipelineStageFlags p.compute⟩⟩
  actions : ∀ p ∈ passes, ∀ va ∈ p.implicitActions, ActionWell i va.2
  bodies : ∀ p ∈ passes, BodyWell sepDS G i (cached p.id) p
  outputs : MapNear i G.outputs.toMap

/-- Image `i` is only transferred and sampled in the graph: its passes do no more, and what it knows of the image is so. -/
structure OnlyMoved (sepDS : Bool) (G : GraphSt) (i : Nat) (cached : Nat → Nat → Option RPass.PassObj) (passes : List RunPass) : Prop
    extends MovesOnly sepDS G i cached passes where
  inputs : MapWell i G.inputs
  final : MapWell i G.final.images

/-- The accesses made to images in a usual layout. -/
def accessesIn (layout : Nat) : AccessState :=
  if layout = Layout.transferSrc then transferRead else if layout = Layout.transferDst then transferWrite else sampling

/-- In the frame, the body of pass `k` is entered with the recording `r`, and the subresource is one of those its attachment `a`
declares. -/
structure UsesAt (sepDS : Bool) (fmt : Nat → Nat) (G : GraphSt) (en : Nat → Bool) (index : Nat → Nat) (passes : List RunPass) (f0 : Frame)
    (k : Nat) (p : RunPass) (r : Rec) (att : Attachment) (i a l m : Nat) : Prop where
  pass : passes[k]? = some p
  entered : RPass.enteredRec ⟨sepDS, en⟩ G index passes f0 k = some r
  attached : att ∈ p.images
  moved : Run.moved att = true
  view : ∃ v, att.img.view (index p.id) = some v ∧ v.image.id = i ∧ v.range.Has l m
  aspect : HasAspect (fmt i) a

end Verif.Haz
