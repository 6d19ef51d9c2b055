import Verif.Spec.BufferHazards
import Verif.Spec.Multi
/-
Uses of images and buffers by several graphs run one after the other: the specification side of C99.
-/
namespace Verif.Multi
open Verif.Rec Verif.Att Verif.Run Verif.Gpu

/-- The recording the run starts with. -/
def Ran.first (sepDS : Bool) (a : Ran) : Frame :=
  frameStart sepDS (a.before.finals a.job.deps) a.job.passes (a.before.initialised a.job.graph) (a.before.log a.job.graph)

/-- A moment of the session at which buffer `b` is accessed, with the accesses `s`: once the commands `pre` are executed, those of
the runs before and those of the run `a` before it, a transfer command is, or the work of a pass that the buffer is attached to. -/
inductive BufferMoment (sepDS : Bool) (b : Nat) (h : List Ran) : List Cmd → AccessState → Prop
  | mk (newer : List Ran) (a : Ran) (older : List Ran) (runs : h = newer ++ a :: older) (pre : List Cmd) (s : AccessState)
      (moment : BHaz.Moment ⟨sepDS, a.job.enabled⟩ (a.before.st a.job.graph) b a.job.index a.job.passes (a.first sepDS)
        a.frame.recd.cmds pre s) :
      BufferMoment sepDS b h (stream older ++ pre) s

/-- A moment of the session at which the body of a pass starts that uses the aspect `asp` of level `m` of layer `l` of image `i`, with
the accesses its layout is for. -/
inductive PassMoment (sepDS : Bool) (fmt : Nat → Nat) (i asp l m : Nat) (h : List Ran) : List Cmd → AccessState → Prop
  | mk (newer : List Ran) (a : Ran) (older : List Ran) (runs : h = newer ++ a :: older) (k : Nat) (p : RunPass) (r : Rec)
      (att : Attachment)
      (uses : Haz.UsesAt sepDS fmt (a.before.st a.job.graph) a.job.enabled a.job.index a.job.passes (a.first sepDS) k p r att i asp l m) :
      PassMoment sepDS fmt i asp l m h (stream older ++ r.cmds) (Haz.accessesIn (att.getImageLayout sepDS))

/-- A moment of the session at which the subresource is accessed: by a transfer command, or by such a pass. -/
inductive ImageMoment (sepDS : Bool) (fmt : Nat → Nat) (i asp l m : Nat) (h : List Ran) : List Cmd → AccessState → Prop
  | transfer (newer : List Ran) (a : Ran) (older : List Ran) (runs : h = newer ++ a :: older) (pre post : List Cmd) (x : Cmd) (w : Bool)
      (at' : a.frame.recd.cmds = pre ++ x :: post) (does : Haz.Does i asp l m w x) :
      ImageMoment sepDS fmt i asp l m h (stream older ++ pre) (Haz.scope w)
  | pass (pre : List Cmd) (s : AccessState) (moment : PassMoment sepDS fmt i asp l m h pre s) : ImageMoment sepDS fmt i asp l m h pre s

/-- The passes of the run only transfer and sample image `i`. -/
def Moves (sepDS : Bool) (i : Nat) (a : Ran) : Prop :=
  Haz.MovesOnly sepDS (a.before.st a.job.graph) i a.job.cached a.job.passes

/-- The passes of the run use byte `y` of buffer `b` in ordinary ways (as C98). -/
def UsesWell (sepDS : Bool) (b y : Nat) (a : Ran) : Prop :=
  BHaz.UsedWell sepDS (a.before.st a.job.graph) b y a.job.index a.job.cached a.job.passes

end Verif.Multi
