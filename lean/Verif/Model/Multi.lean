import Verif.Model.RunnableGraph
import Verif.Model.RenderPass
/-
Several graphs over the same images.
Modelled code: /repo/include/RenderGraph/FrameGraph.hpp:66-69, 115-118 (`addDependency`, `getDependencies`),
/repo/source/RenderGraph/RunnableGraph.cpp:287-345 (`record`: imports the final states of the dependencies, registers its own).
-/
namespace Verif.Multi
open Verif.Rec Verif.Run

/-- The graphs, by number: what each `FrameGraph` remembers, and what its `RunnableGraph` has initialised and logged. -/
structure World where
  st : Nat → GraphSt
  initialised : Nat → Nat → Nat → Bool
  log : Nat → List Event

/-- One recording: which graph, its passes, the graphs it depends on in the order of the `addDependency` calls, the enabled
passes and the indices; the render pass objects its drawing passes have kept. -/
structure Job where
  graph : Nat
  passes : List RunPass
  deps : List Nat
  enabled : Nat → Bool
  index : Nat → Nat
  cached : Nat → Nat → Option RPass.PassObj

/-- The final states the recording imports: those the dependencies have at that moment, RunnableGraph.cpp:293-297. -/
def World.finals (W : World) (deps : List Nat) : List Ctx := deps.map fun d => (W.st d).final

/-- `RunnableGraph::record` of one of the graphs; only this graph's state changes (`m_graph.registerFinalState`,
RunnableGraph.cpp:344). -/
def World.record (sepDS : Bool) (W : World) (x : Job) : Option (World × Frame) :=
  (Run.record ⟨sepDS, x.enabled⟩ (W.st x.graph) (W.finals x.deps) x.index x.passes (W.initialised x.graph) (W.log x.graph)).map
    fun r => ({ st := fun n => if n = x.graph then r.1 else W.st n
                initialised := fun n => if n = x.graph then r.2.initialised else W.initialised n
                log := fun n => if n = x.graph then r.2.log else W.log n }, r.2)

end Verif.Multi
