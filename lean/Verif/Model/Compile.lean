import Verif.Model.Sort
import Verif.Model.RunnableGraph
/-
The runnable passes of a compiled graph.
-/
namespace Verif.Run

/-- `RunnableGraph::RunnableGraph`, RunnableGraph.cpp:243-255: one runnable pass for each pass of the graph, in the order
`FrameGraph::compile` (FrameGraph.cpp:190-215) found; `make` stands for the creators given to `createPass`. -/
def runnables (make : Sort.Pass → RunPass) (order : List Sort.Pass) : List RunPass := order.map make

/-- The passes of `FrameGraph::compile`, FrameGraph.cpp:190-211 and 236-250: ordered, a node for each in that order, and a
runnable pass for each node. (The dependencies computed in between concern the transitions only: Model/Dependency.lean.) -/
def compiled (make : Sort.Pass → RunPass) (decl : List Sort.Pass) : Except Sort.Error (List RunPass) :=
  (Sort.compileOrder decl).map (runnables make)

end Verif.Run
