import Verif.Spec.Hazards
import Verif.Props.RenderPass
import Verif.Props.Frame
/-
Uses of buffers and what buffer barriers order: the specification side of C98.
-/
namespace Verif.BHaz
open Verif.Rec Verif.Att Verif.Run Verif.Gpu Verif.Haz

/-- The range of `n` bytes (`VK_WHOLE_SIZE`: all) from offset `o` holds byte `y`. -/
def Holds (o n y : Nat) : Prop := o ≤ y ∧ (n = wholeSize ∨ y < o + n)

instance (o n y : Nat) : Decidable (Holds o n y) := inferInstanceAs (Decidable (_ ∧ _))

/-- The command, a transfer or a fill, writes (`w`), or reads, buffer `b`. -/
def Does (b : Nat) : Bool → Cmd → Prop
  | true, .copyBuffer _ d _ _ _ | true, .copyImageToBuffer _ _ _ _ _ _ _ _ _ d _ | true, .fillBuffer d _ _ => d = b
  | false, .copyBuffer s _ _ _ _ | false, .copyBufferToImage s _ _ _ _ _ _ _ _ _ _ => s = b
  | _, _ => False

/-- The two scopes of a barrier on byte `y` of buffer `b`. -/
def scopes (b y : Nat) : Cmd → Option (AccessState × AccessState)
  | .bufferBarrier b' o n src dst => if b' = b ∧ Holds o n y then some (src, dst) else none
  | _ => none

/-- The scopes of the barriers on the byte among the commands, in order. -/
def barriers (b y : Nat) (cs : List Cmd) : List (AccessState × AccessState) := cs.filterMap (scopes b y)

/-- The call, made by the body of a pass, asks for the byte if it asks for the buffer, in a state later barriers can wait for. -/
def CallUses (b y : Nat) : Call → Prop
  | .buffer q => q.buffer = b → HasStage q.wanted ∧ Holds q.offset q.size y
  | _ => True

/-- What the body of a pass does to buffer `b`: the passes of the library and the passes that use the recording context. -/
inductive BodyUses (sepDS : Bool) (G : GraphSt) (b y index : Nat) (cached : Option RPass.PassObj) (p : RunPass) : Prop
  | draws (w h : Nat) (draw : List Nat)
      (body : ∀ r, p.body index r = ((RPass.recordPass sepDS G w h p cached draw index r).map (·.2)).getD r)
  | copies (en : Nat → Bool) (size : Xfer.Extent) (final : Nat)
      (body : ∀ r, p.body index r = (Xfer.imageCopy ⟨sepDS, en⟩ p size final index r).getD r)
  | blits (srcOffset : Xfer.Offset) (srcSize : Xfer.Extent) (dstOffset : Xfer.Offset) (dstSize : Xfer.Extent) (filter : Nat)
      (body : ∀ r, p.body index r = (Xfer.imageBlit p srcOffset srcSize dstOffset dstSize filter index r).getD r)
  | copiesBuffers (copyOffset copyRange : Nat)
      (body : ∀ r, p.body index r = (Xfer.bufferCopy p copyOffset copyRange index r).getD r)
      (apart : ∀ s d : Attachment, p.buffers.head? = some s → p.buffers.getLast? = some d → s.buf.buffer index ≠ d.buf.buffer index)
      (held : ∀ s ∈ p.buffers, s.buf.buffer index = some b → Holds s.buf.offset s.buf.size y)
  | uploads (offset : Xfer.Offset) (size : Xfer.Extent)
      (body : ∀ r, p.body index r = (Xfer.bufferToImage p offset size index r).getD r)
      (declared : ∀ s : Attachment, p.buffers.head? = some s → s.buf.buffer index = some b → Followed s ∧ wantsBuf p s = transferRead)
  | downloads (offset : Xfer.Offset) (size : Xfer.Extent)
      (body : ∀ r, p.body index r = (Xfer.imageToBuffer p offset size index r).getD r)
      (declared : ∀ s : Attachment, p.buffers.head? = some s → s.buf.buffer index = some b → Followed s ∧ wantsBuf p s = transferWrite)
  | mipmaps (ty : ViewType) (output : LayoutState)
      (body : ∀ r, ∃ en, p.body index r = match p.images.head? with
        | some a => match a.img.view index with
          | some v => Mip.generateMipmaps ⟨sepDS, en⟩ G p output v ty r
          | none => r
        | none => r)
  | uses (h : ∀ r, ∃ calls, (∀ c ∈ calls, CallUses b y c) ∧ p.body index r = performAll sepDS r calls)

/-- Buffer `b` is used in ordinary ways in the graph, as far as byte `y` is concerned: all that is attached of it holds the byte, the
attachments of one pass that are followed want one state, one that later barriers can wait for. -/
structure UsedWell (sepDS : Bool) (G : GraphSt) (b y : Nat) (index : Nat → Nat) (cached : Nat → Nat → Option RPass.PassObj)
    (passes : List RunPass) : Prop where
  held : ∀ p ∈ passes, ∀ a, UsesBuf p (index p.id) b a → Holds a.buf.offset a.buf.size y
  stage : ∀ p ∈ passes, ∀ a, UsesBuf p (index p.id) b a → HasStage (wantsBuf p a)
  one : ∀ p ∈ passes, ∀ a a', UsesBuf p (index p.id) b a → UsesBuf p (index p.id) b a' → wantsBuf p a = wantsBuf p a'
  bodies : ∀ p ∈ passes, BodyUses sepDS G b y (index p.id) (cached p.id (index p.id)) p

/-- A moment of a frame whose commands are `cmds` at which the buffer is accessed, with the accesses `s`: once the commands `pre`
are executed, a transfer command is, or the work of a pass that the buffer is attached to. -/
inductive Moment (env : Env) (G : GraphSt) (b : Nat) (index : Nat → Nat) (passes : List RunPass) (f0 : Frame) (cmds : List Cmd) :
    List Cmd → AccessState → Prop
  | transfer (pre post : List Cmd) (x : Cmd) (w : Bool) (at' : cmds = pre ++ x :: post) (does : Does b w x) :
      Moment env G b index passes f0 cmds pre (scope w)
  | pass (k : Nat) (p : RunPass) (r : Rec) (a : Attachment) (pass : passes[k]? = some p)
      (entered : RPass.enteredRec env G index passes f0 k = some r) (attached : UsesBuf p (index p.id) b a) :
      Moment env G b index passes f0 cmds r.cmds (wantsBuf p a)

end Verif.BHaz
