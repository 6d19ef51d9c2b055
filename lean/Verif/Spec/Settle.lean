import Verif.Spec.Library
import Verif.Props.Ready
/-
C75: a graph recorded again and again without any change. What the passes do, and how frames follow each other.
-/
namespace Verif.Settle
open Verif.Rec Verif.Att Verif.Run Verif.Gpu Verif.RPass

/-- What the body of a pass does, the same in each frame (it may depend on the pass index): calls on the recording context,
drawing (with a render pass of its own), one of the library's transfers, or mipmap generation. -/
inductive Work where
  | calls (cs : Nat → List Call)
  | draws (w h : Nat) (draw : Nat → List Nat)
  | imageCopy (en : Nat → Bool) (size : Xfer.Extent) (final : Nat)
  | imageBlit (srcOffset : Xfer.Offset) (srcSize : Xfer.Extent) (dstOffset : Xfer.Offset) (dstSize : Xfer.Extent)
      (filter : Nat)
  | bufferCopy (copyOffset copyRange : Nat)
  | bufferToImage (offset : Xfer.Offset) (size : Xfer.Extent)
  | imageToBuffer (offset : Xfer.Offset) (size : Xfer.Extent)
  | mipmaps (en : Nat → Bool) (ty : ViewType) (output : LayoutState)

/-- A pass: its declarations (the body is not looked at) and what it does. -/
structure Decl where
  pass : RunPass
  work : Work

/-- The render pass objects of the passes that draw, by pass and index. -/
abbrev Objects := Nat → Nat → Option PassObj

/-- The body of a pass, given what the graph remembers and the object the pass has. `none` (undefined behaviour) is taken to
record nothing. -/
def Decl.body (sepDS : Bool) (G : GraphSt) (K : Objects) (d : Decl) (index : Nat) (r : Rec) : Rec :=
  match d.work with
  | .calls cs => performAll sepDS r (cs index)
  | .draws w h draw => ((recordPass sepDS G w h d.pass (K d.pass.id index) (draw index) index r).map (·.2)).getD r
  | .imageCopy en size final => (Xfer.imageCopy ⟨sepDS, en⟩ d.pass size final index r).getD r
  | .imageBlit so ss dO ds f => (Xfer.imageBlit d.pass so ss dO ds f index r).getD r
  | .bufferCopy o n => (Xfer.bufferCopy d.pass o n index r).getD r
  | .bufferToImage o s => (Xfer.bufferToImage d.pass o s index r).getD r
  | .imageToBuffer o s => (Xfer.imageToBuffer d.pass o s index r).getD r
  | .mipmaps en ty output => match d.pass.images.head? with
    | some a => match a.img.view index with
      | some v => Mip.generateMipmaps ⟨sepDS, en⟩ G d.pass output v ty r
      | none => r
    | none => r

/-- The pass with that body. -/
def Decl.runs (sepDS : Bool) (G : GraphSt) (K : Objects) (d : Decl) : RunPass :=
  { d.pass with body := d.body sepDS G K }

/-- The passes of a frame. -/
def runsAll (sepDS : Bool) (G : GraphSt) (K : Objects) (ds : List Decl) : List RunPass := ds.map (Decl.runs sepDS G K)

/-- After a frame, each pass that drew has the object it drew with. -/
def Keeps (env : Env) (G : GraphSt) (index : Nat → Nat) (ds : List Decl) (f : Frame) (K K' : Objects) : Prop :=
  ∀ d ∈ ds, ∀ w h draw, d.work = .draws w h draw → ∀ r,
    Enters env G index (runsAll env.sepDS G K ds) f (d.runs env.sepDS G K) r →
    K' d.pass.id (index d.pass.id)
      = (recordPass env.sepDS G w h d.pass (K d.pass.id (index d.pass.id)) (draw (index d.pass.id)) (index d.pass.id) r).map (·.1)

/-- The graph is recorded again and again, with the same passes enabled, the same indices, the same dependencies; each
recording starts from what the one before left. The commands recorded by each. -/
inductive Repeats (env : Env) (deps : List Ctx) (index : Nat → Nat) (ds : List Decl) :
    GraphSt → Objects → (Nat → Nat → Bool) → List Event → List (List Cmd × GraphSt) → Prop
  | done (G K ini log) : Repeats env deps index ds G K ini log []
  | again {G K ini log K' G' f out}
      (e : record env G deps index (runsAll env.sepDS G K ds) ini log = some (G', f))
      (keeps : Keeps env G index ds (frameStart env.sepDS deps (runsAll env.sepDS G K ds) ini log) K K')
      (rest : Repeats env deps index ds G' K' f.initialised f.log out) :
      Repeats env deps index ds G K ini log ((f.recd.cmds, G') :: out)

/-- What is asked of the works: calls a pass body may make, targets that ask for a layout, mipmaps of whole images of several
levels that the graph moves. -/
def WorkOk (sepDS : Bool) (V : View → Prop) (passes : List RunPass) (d : Decl) : Prop :=
  match d.work with
  | .calls cs => ∀ index, ∀ c ∈ cs index, BodyCall V passes c
  | .draws _ _ _ => Declares sepDS d.pass
  | .mipmaps _ ty _ => ty ≠ .d3 ∧ ∀ a, d.pass.images.head? = some a → moved a = true ∧ ∀ v ∈ a.img.views,
      v.range.baseMip = 0 ∧ v.range.levels = v.image.mipLevels ∧ 2 ≤ v.image.mipLevels
  | _ => True

/-- The layouts announced to the passes that make mipmaps are real ones, and not transfer layouts. -/
def MipsTold (env : Env) (G : GraphSt) (index : Nat → Nat) : List Decl → Prop
  | [] => True
  | d :: next =>
    (env.enabled d.pass.id = true → (∃ en ty output, d.work = .mipmaps en ty output) →
      Lib.Announces env.sepDS G d.pass (index d.pass.id) ⟨announce env G d.pass (next.map (·.pass)) Ctx.new, []⟩)
    ∧ MipsTold env G index next

end Verif.Settle
