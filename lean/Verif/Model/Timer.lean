/-!
# Timers: the timestamp queries of a graph and of its passes

Models `crg::FramePassTimer` (source/RenderGraph/FramePassTimer.cpp 33-145), the query pool of
`RunnableGraph` (source/RenderGraph/RunnableGraph.cpp 137-160, 174-194) and the calls
`RunnablePass` and `RunnableGraph` make to their timers
(source/RenderGraph/RunnablePass.cpp 320-344, 365-494, 520-526; RunnableGraph.cpp 287-376).
CPU times and the values of the queries are not modelled.
-/
namespace Verif.Timer

/-- `FramePassTimer::Query`, include/RenderGraph/FramePassTimer.hpp. -/
structure Query where
  offset : Nat
  started : Bool := false
  written : Bool := false
  deriving DecidableEq, Repr

/-- `m_queries`, an array of two. -/
structure Timer where
  front : Query
  back : Query
  deriving DecidableEq, Repr

/-- What the timer tells the driver. -/
inductive Act where
  /-- `vkCmdResetQueryPool( o, 2 )` recorded -/
  | reset (o : Nat)
  /-- `vkCmdWriteTimestamp( q )` recorded -/
  | write (q : Nat)
  /-- `vkGetQueryPoolResults( o, 2, WAIT )` called -/
  | read (o : Nat)
  deriving DecidableEq, Repr

/-- The constructor on a shared pool, FramePassTimer.cpp 33-45: the timer and the next offset. -/
def make (base : Nat) : Timer × Nat :=
  (⟨{ offset := base }, { offset := base + 2 }⟩, (base + 4) % 2 ^ 32)

/-- The calls a timer gets. -/
inductive Op where
  | beginPass | endPass | notify | retrieve
  deriving DecidableEq, Repr

/-- FramePassTimer.cpp: `notifyPassRender` 82-86, `beginPass` 100-112, `endPass` 114-122,
`retrieveGpuTime` 124-150. -/
def step (t : Timer) : Op → Timer × List Act
  | .beginPass => (⟨t.back, t.front⟩, [.reset t.back.offset, .write (t.back.offset + 0)])
  | .endPass => ({ t with front := { t.front with written := true } }, [.write (t.front.offset + 1)])
  | .notify => ({ t with front := { t.front with started := true } }, [])
  | .retrieve =>
    if t.front.started && t.front.written then
      ({ t with front := { t.front with started := false, written := false } },
        [.read t.front.offset])
    else (t, [])

/-- A sequence of calls. -/
def exec (t : Timer) : List Op → Timer × List Act
  | [] => (t, [])
  | o :: os => let r := step t o; let r' := exec r.1 os; (r'.1, r.2 ++ r'.2)

/-- The size given to the pool of a graph of `n` passes, RunnableGraph.cpp 176 (32 bits). -/
def poolSize (n : Nat) : Nat := (n + 1) * 2 * 2 % 2 ^ 32

/-- The timers of a graph, made one after the other from the shared offset: that of the graph
(RunnableGraph.cpp 194), then that of each pass in order (247-255, RunnablePass.cpp 258). -/
def makeAll (base : Nat) : Nat → List Timer
  | 0 => []
  | n + 1 => (make base).1 :: makeAll (make base).2 n

/-- The timers of a graph of `n` passes. -/
def graphTimers (n : Nat) : List Timer := makeAll 0 (n + 1)

/-! ## A pass in its graph -/

/-- What happens to one pass. `e`: what `isEnabled()` answers. -/
inductive Use where
  /-- `RunnableGraph::record()` called by the user -/
  | record (e : Bool)
  /-- `RunnablePass::reRecordCurrent()` -/
  | reRecord (e : Bool)
  /-- `RunnableGraph::run()`: `e` while recording, `e'` when the pass is notified -/
  | run (e e' : Bool)
  /-- `getTimer().retrieveGpuTime()` -/
  | retrieve
  deriving DecidableEq, Repr

/-- What the driver sees. `cmd`: recorded in the command buffer of the graph; `other`: recorded in
the one of the pass, which the library never submits. -/
inductive Event where
  | begin
  | cmd (a : Act)
  | other (a : Act)
  | submit
  | call (a : Act)
  deriving DecidableEq, Repr

/-- `recordInto`, RunnablePass.cpp 365-494: only if enabled, between `beginPass` and `endPass`. -/
def recordPass (e : Bool) (t : Timer) : Timer × List Act :=
  if e then exec t [.beginPass, .endPass] else (t, [])

/-- One use. `run`, RunnableGraph.cpp 362-393: record, notify (372-376; RunnablePass.cpp 520-526),
submit. -/
def use (t : Timer) : Use → Timer × List Event
  | .record e => let r := recordPass e t; (r.1, .begin :: r.2.map .cmd)
  | .reRecord e => let r := recordPass e t; (r.1, r.2.map .other)
  | .run e e' =>
    let r := recordPass e t
    (if e' then (step r.1 .notify).1 else r.1, .begin :: r.2.map .cmd ++ [.submit])
  | .retrieve => let r := step t .retrieve; (r.1, r.2.map .call)

/-- A sequence of uses. -/
def uses (t : Timer) : List Use → Timer × List Event
  | [] => (t, [])
  | u :: us => let r := use t u; let r' := uses r.1 us; (r'.1, r.2 ++ r'.2)

end Verif.Timer
