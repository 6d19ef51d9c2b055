import Verif.Model.Sync
import Verif.Model.RunnableGraph
/-
Model of how runnable graphs use one queue: the semaphores of their submissions and the destruction of graphs.
Modelled code: /repo/source/RenderGraph/RunnableGraph.cpp:287-393 (`record`, `run`: what is given to the queue and to the fence;
the recorded commands are in `Model/RunnableGraph.lean`), 267-285 (destructor) with the member order of
/repo/include/RenderGraph/RunnableGraph.hpp:141-155; /repo/source/RenderGraph/RunnablePass.cpp:44-59 (`convert`), 130-198 (`Fence`).
Simplifications: graphs have at least one pass; the driver's results are not modelled (the code ignores them); all submissions
go to one queue; of a graph's passes, only the command pool they allocate from is destroyed (their objects are in
`Model/Lifetime.lean`).
-/
namespace Verif.Queue
open Verif.Run (Wait convert)

/-- The handle of the semaphore of graph `g`, and of the user's own semaphore `e`: distinct, not null. -/
def semOf (g : Nat) : Nat := 2 * g + 1
def extSem (e : Nat) : Nat := 2 * e + 2

/-- What a graph owns on the device. -/
inductive Obj where
  | semaphore | commandBuffer | fence | commandPool
deriving DecidableEq, Repr

/-- Driver calls. -/
inductive Call where
  /-- calls about fences and command buffers -/
  | base (c : Sync.Call)
  /-- `vkQueueSubmit` of graph `g` with its fence: the semaphores waited for, the one signaled -/
  | submit (g : Nat) (waits : List Nat) (signal : Nat)
  /-- a submission or presentation of the user -/
  | user (waits signals : List Nat)
  /-- `vkDeviceWaitIdle` by the user -/
  | idle
  /-- an object of graph `g` is destroyed or freed -/
  | release (g : Nat) (o : Obj)
deriving DecidableEq, Repr

/-- User calls. -/
inductive Op where
  /-- `RunnableGraph::run( toWait, queue )` -/
  | run (g : Nat) (toWait : List Wait)
  /-- `getFence().wait( 0xFFFFFFFFFFFFFFFF )` -/
  | wait (g : Nat)
  | user (waits signals : List Nat)
  | idle
  /-- `~RunnableGraph` -/
  | destroy (g : Nat)
deriving DecidableEq, Repr

/-- `RunnableGraph::run`, RunnableGraph.cpp:362-393. -/
def run (g : Nat) (toWait : List Wait) (s : Sync.St) : Sync.St × List Call :=
  let r1 := Sync.record g [] s
  let r2 := Sync.fenceReset g r1.1
  let r3 := Sync.clear r2.1
  (r3.1, (r1.2 ++ r2.2 ++ r3.2).map .base ++ [.submit g (convert toWait).1 (semOf g)])

/-- `~RunnableGraph`, RunnableGraph.cpp:267-285, then the members in reverse order: nothing is waited for. -/
def teardown (g : Nat) : List Call :=
  [.release g .semaphore, .release g .commandBuffer, .release g .fence, .release g .commandPool]

/-- What `run` returns: RunnableGraph.cpp:391-392. The stage is the one of the last pass recorded. -/
def result (g : Nat) (stage : Nat) : List Wait := [⟨semOf g, stage⟩]

def step (s : Sync.St) : Op → Sync.St × List Call
  | .run g ws => run g ws s
  | .wait g =>
    let r := Sync.fenceWait true g s
    (r.1, r.2.map .base)
  | .user ws ss => (s, [.user ws ss])
  | .idle => (s, [.idle])
  | .destroy g => (s, teardown g)

def exec (s : Sync.St) : List Op → Sync.St × List Call
  | [] => (s, [])
  | o :: os =>
    let r := step s o
    let r' := exec r.1 os
    (r'.1, r.2 ++ r'.2)

end Verif.Queue
