import Verif.Model.Multi
import Verif.Spec.Graph
/-
Vocabulary for several graphs run one after the other, in any order, any number of times.
-/
namespace Verif.Multi
open Verif.Rec Verif.Run Verif.Gpu

/-- One run of the session: the job, the graphs before it, and what it recorded. -/
structure Ran where
  job : Job
  before : World
  frame : Frame

/-- A session: graphs recorded and submitted one after the other. The history has the latest run first. -/
inductive Session (sepDS : Bool) (W0 : World) : List Ran → World → Prop
  | start : Session sepDS W0 [] W0
  | run {h : List Ran} {W W' : World} {x : Job} {f : Frame} (s : Session sepDS W0 h W) (e : W.record sepDS x = some (W', f)) :
    Session sepDS W0 (⟨x, W, f⟩ :: h) W'

/-- Everything the GPU was given, in order. -/
def stream : List Ran → List Cmd
  | [] => []
  | a :: h => stream h ++ a.frame.recd.cmds

/-- What is known of a subresource at the end of the run (`FrameGraph::getFinalLayoutState`). -/
def Ran.knows (a : Ran) (i l m : Nat) : Option LayoutState := a.frame.recd.ctx.images.at i l m

/-- What the last run that knows something of the subresource knows. -/
def lastKnown : List Ran → Nat → Nat → Nat → Option LayoutState
  | [], _, _, _ => none
  | a :: h, i, l, m => match a.knows i l m with
    | some s => some s
    | none => lastKnown h i l m

/-- The graph is well informed when the job is run: whatever it believes (from its dependencies, else its declared inputs, else
itself) of a subresource is the layout the last run that knows about the subresource says, or the one it had at the very
beginning if there is no such run. -/
def Informed (g0 : Layouts) (h : List Ran) (W : World) (x : Job) : Prop :=
  ∀ i l m s, known (startCtx (W.finals x.deps)) (W.st x.graph) i l m = some s →
    match lastKnown h i l m with
    | some t => s.layout = t.layout
    | none => ∀ a, g0 i a l m = s.layout

/-- All the runs were well informed. -/
def AllInformed (g0 : Layouts) : List Ran → Prop
  | [] => True
  | a :: h => Informed g0 h a.before a.job ∧ AllInformed g0 h

/-- Each run but the first has the graph of the run before as its first dependency. -/
def Chained : List Ran → Prop
  | a :: b :: h => a.job.deps.head? = some b.job.graph ∧ Chained (b :: h)
  | _ => True

/-- The graphs were never run and no input is declared. -/
def Fresh (W : World) : Prop := ∀ n, (W.st n).inputs = LayoutMap.empty ∧ (W.st n).final = Ctx.new

end Verif.Multi
