/-!
# The fence of a runnable graph and the deferred destructions

Models `crg::Fence` (source/RenderGraph/RunnablePass.cpp 130-198), the parts of
`RunnableGraph::record` / `RunnableGraph::run` that talk to the fence, the command buffer and the
queue (source/RenderGraph/RunnableGraph.cpp 287-393) and `crg::DeletionQueue`
(include/RenderGraph/GraphContext.hpp 345-369).

The model runs a program of user calls and yields the list of the driver calls it makes.  What the
driver and the GPU do with these calls is in `Spec/Sync.lean`.

Graphs are numbers, objects whose destruction is deferred are numbers.  Graphs have at least one
pass (`FrameGraph::compile` throws otherwise, source/RenderGraph/FrameGraph.cpp), hence `record`
takes its non-empty branch.  The results of the driver calls (device loss) are not modelled: the
code ignores them.
-/
namespace Verif.Sync

/-- The driver calls the modelled functions make.
`submit g uses`: the command buffer of graph `g` is submitted with the fence of `g`; its commands
refer to the objects `uses`. -/
inductive Call where
  /-- `vkWaitForFences`, infinite timeout (RunnablePass.cpp 189) -/
  | waitForever (g : Nat)
  /-- `vkWaitForFences`, a timeout the user chose (RunnablePass.cpp 189) -/
  | waitFor (g : Nat)
  /-- `vkResetFences` (RunnablePass.cpp 175) -/
  | resetFence (g : Nat)
  /-- `vkResetCommandBuffer` (RunnableGraph.cpp 310) -/
  | resetCmd (g : Nat)
  /-- `vkQueueSubmit` (RunnableGraph.cpp 387) -/
  | submit (g : Nat) (uses : List Nat)
  /-- a destruction scheduled in the deletion queue is executed (GraphContext.hpp 361-364) -/
  | destroy (x : Nat)
  deriving DecidableEq, Repr

/-- The state kept by the library: `Fence::m_fenceWaited` of each graph's fence
(include/RenderGraph/RunnablePass.hpp 70), and `GraphContext::delQueue`
(include/RenderGraph/GraphContext.hpp 394), which all graphs of the context share. -/
structure St where
  waited : Nat → Bool
  queue : List Nat

/-- include/RenderGraph/RunnablePass.hpp 70 initialises `m_fenceWaited` to false (`bool m_fenceWaited{}`),
and `m_toDelete` is empty. -/
def St.init : St := ⟨fun _ => false, []⟩

/-- The user's calls.
`run g uses pushed`: `RunnableGraph::run` on `g`; the recorded commands refer to `uses`, and the
destructions `pushed` are scheduled while the passes record. -/
inductive Op where
  /-- `getFence().wait( 0xFFFFFFFFFFFFFFFF )` -/
  | wait (g : Nat)
  /-- `getFence().wait( t )`, another `t` -/
  | waitFor (g : Nat)
  /-- `getFence().reset()` -/
  | reset (g : Nat)
  /-- the user's own `vkQueueSubmit` with the fence of `g` -/
  | submit (g : Nat) (uses : List Nat)
  /-- `delQueue.push( x )`, for instance by `PipelineHolder::resetPipeline` -/
  | push (x : Nat)
  /-- `RunnableGraph::record` -/
  | record (g : Nat) (pushed : List Nat)
  /-- `RunnableGraph::run` -/
  | run (g : Nat) (uses : List Nat) (pushed : List Nat)
  deriving DecidableEq, Repr

/-- Assignment of `m_fenceWaited` of the fence of `g`. -/
def St.setWaited (s : St) (g : Nat) (b : Bool) : St :=
  { s with waited := fun h => if h = g then b else s.waited h }

/-- `Fence::wait`, RunnablePass.cpp 183-198: `m_fenceWaited` is set whatever the outcome. -/
def fenceWait (forever : Bool) (g : Nat) (s : St) : St × List Call :=
  (s.setWaited g true, [if forever then .waitForever g else .waitFor g])

/-- `Fence::reset`, RunnablePass.cpp 166-181. -/
def fenceReset (g : Nat) (s : St) : St × List Call :=
  let r := if s.waited g then (s, []) else fenceWait true g s
  (r.1.setWaited g false, r.2 ++ [.resetFence g])

/-- `DeletionQueue::push`, GraphContext.hpp 352-355. -/
def push (xs : List Nat) (s : St) : St := { s with queue := s.queue ++ xs }

/-- `DeletionQueue::clear`, GraphContext.hpp 357-365. -/
def clear (s : St) : St × List Call :=
  ({ s with queue := [] }, s.queue.map .destroy)

/-- `RunnableGraph::record`, RunnableGraph.cpp 287-345: line 309 waits, line 310 resets the command
buffer; the passes then record and may schedule destructions. -/
def record (g : Nat) (pushed : List Nat) (s : St) : St × List Call :=
  let r := fenceWait true g s
  (push pushed r.1, r.2 ++ [.resetCmd g])

/-- `RunnableGraph::run`, RunnableGraph.cpp 362-393: record, reset the fence (385), clear the
deletion queue (386), submit (387). -/
def run (g : Nat) (uses pushed : List Nat) (s : St) : St × List Call :=
  let r1 := record g pushed s
  let r2 := fenceReset g r1.1
  let r3 := clear r2.1
  (r3.1, r1.2 ++ r2.2 ++ r3.2 ++ [.submit g uses])

/-- One user call. -/
def step (s : St) : Op → St × List Call
  | .wait g => fenceWait true g s
  | .waitFor g => fenceWait false g s
  | .reset g => fenceReset g s
  | .submit g uses => (s, [.submit g uses])
  | .push x => (push [x] s, [])
  | .record g pushed => record g pushed s
  | .run g uses pushed => run g uses pushed s

/-- A program of user calls: the state it ends in and the driver calls it made. -/
def exec (s : St) : List Op → St × List Call
  | [] => (s, [])
  | o :: os =>
    let r := step s o
    let r' := exec r.1 os
    (r'.1, r.2 ++ r'.2)

end Verif.Sync
