import Verif.Model.Timer
import Mathlib.Data.Rat.Floor
/-
Model of the times a timer reports.
Modelled code: /repo/source/RenderGraph/FramePassTimer.cpp (FramePassTimerBlock 11-30, start 80-84, stop 92-96, reset 98-102,
retrieveGpuTime 127-154), /repo/include/RenderGraph/FramePassTimer.hpp (getCpuTime, getGpuTime), over the queries of
Model/Timer.lean. Simplifications: clock readings and times are natural numbers of nanoseconds, without overflow; the clock
never goes back; `float` arithmetic is a rounding function `fl` on rationals; all the queries of a timer are its own (C33).
-/
namespace Verif.Times
open Verif.Timer

/-- What a `FramePassTimer` has beside its queries: `m_cpuSaveTime`, `m_cpuTime`, `m_gpuTime`, FramePassTimer.hpp:155-157. -/
structure Clocks where
  save : Nat := 0
  cpu : Nat := 0
  gpu : Nat := 0
deriving DecidableEq

/-- The timers of a process. -/
structure Proc where
  queries : Nat → Timer
  clocks : Nat → Clocks
  /-- `static float const period` of `retrieveGpuTime`, FramePassTimer.cpp:129: one for the whole process, set by the first call -/
  period : Option ℚ
  /-- what the device wrote in the queries of each timer -/
  pool : Nat → Nat → Nat

/-- Calls. -/
inductive Call where
  /-- `RunnableGraph::run`: the pass (or graph) of timer `i` is recorded if enabled, notified if enabled and submitted; the
  device writes the first timestamp at tick `t0`, the second at `t1` -/
  | run (i : Nat) (enabled : Bool) (t0 t1 : Nat)
  /-- `RunnableGraph::record` alone -/
  | record (i : Nat) (enabled : Bool)
  /-- `retrieveGpuTime`, entered at `before`, left at `after` -/
  | retrieve (i before after : Nat)
  /-- `reset` -/
  | reset (i : Nat)
  /-- `start` -/
  | start (i now : Nat)
  /-- `stop` -/
  | stop (i now : Nat)
deriving DecidableEq

/-- The timer a call is about. -/
def Call.timer : Call → Nat
  | .run i _ _ _ => i
  | .record i _ => i
  | .retrieve i _ _ => i
  | .reset i => i
  | .start i _ => i
  | .stop i _ => i

/-- `f` with another value at `i`. -/
def set {α : Type} (f : Nat → α) (i : Nat) (a : α) : Nat → α := fun j => if j = i then a else f j

/-- The timestamps the device writes, one per `vkCmdWriteTimestamp`. -/
def writes (pool : Nat → Nat) : List Act → List Nat → Nat → Nat
  | .write q :: as, t :: ts => writes (set pool q t) as ts
  | _ :: as, ts => writes pool as ts
  | [], _ => pool

/-- `Nanoseconds{ uint64_t( float( values[1] - values[0] ) / period ) }`, FramePassTimer.cpp:145. -/
def nanoseconds (fl : ℚ → ℚ) (period : ℚ) (t0 t1 : Nat) : Nat :=
  ⌊fl (fl (((t1 + 2 ^ 64 - t0) % 2 ^ 64 : Nat) : ℚ) / period)⌋₊

/-- One call. `periods`: `timestampPeriod` of the device of each timer. -/
def step (fl : ℚ → ℚ) (periods : Nat → ℚ) (P : Proc) : Call → Proc
  | .run i e t0 t1 =>
    let r := recordPass e (P.queries i)
    { P with
      queries := set P.queries i (if e then (Timer.step r.1 .notify).1 else r.1)
      pool := set P.pool i (writes (P.pool i) r.2 [t0, t1]) }
  | .record i e => { P with queries := set P.queries i (recordPass e (P.queries i)).1 }
  | .retrieve i before after =>
    let period := P.period.getD (periods i)
    let q := (P.queries i).front
    { P with
      period := some period
      queries := set P.queries i (Timer.step (P.queries i) .retrieve).1
      clocks := set P.clocks i
        { P.clocks i with
          gpu := if q.started && q.written then 0 + nanoseconds fl period (P.pool i q.offset) (P.pool i (q.offset + 1)) else 0
          cpu := (P.clocks i).cpu + (after - before) } }
  | .reset i => { P with clocks := set P.clocks i { P.clocks i with cpu := 0, gpu := 0 } }
  | .start i now => { P with clocks := set P.clocks i { P.clocks i with save := now } }
  | .stop i now => { P with clocks := set P.clocks i { P.clocks i with cpu := (P.clocks i).cpu + (now - (P.clocks i).save) } }

/-- Calls one after the other. -/
def exec (fl : ℚ → ℚ) (periods : Nat → ℚ) (P : Proc) (cs : List Call) : Proc := cs.foldl (step fl periods) P

/-- A process whose timers have just been made (whatever the pools hold). -/
def Proc.start (pool : Nat → Nat → Nat) : Proc :=
  { queries := fun i => (make (4 * i)).1, clocks := fun _ => {}, period := none, pool := pool }

/-! ### Blocks -/

/-- What the user does with `FramePassTimerBlock`s, which are named. -/
inductive BlockOp where
  /-- `auto b = timer.start();` -/
  | start (b i now : Nat)
  /-- `FramePassTimerBlock b{ std::move( a ) };` -/
  | move (a b : Nat)
  /-- the block's lifetime ends -/
  | destroy (b now : Nat)

/-- `m_timer` of the blocks that exist. -/
abbrev Blocks := List (Nat × Option Nat)

/-- `m_timer` of a block. -/
def Blocks.timer (s : Blocks) (b : Nat) : Option Nat := ((s.find? fun x => x.1 == b).map (·.2)).join

/-- Assign `m_timer`. -/
def Blocks.put (s : Blocks) (b : Nat) (t : Option Nat) : Blocks := s.map fun x => if x.1 == b then (b, t) else x

/-- FramePassTimer.cpp: constructor 11-14 after `start` 80-84, move constructor 16-20, destructor 22-28. -/
def blockStep (s : Blocks) : BlockOp → Blocks × List Call
  | .start b i now => ((b, some i) :: s, [.start i now])
  | .move a b => ((b, s.timer a) :: s.put a none, [])
  | .destroy b now =>
    (s.filter fun x => x.1 != b, match s.timer b with | some i => [.stop i now] | none => [])

/-- The calls a program of blocks makes. -/
def blockCalls : Blocks → List BlockOp → Blocks × List Call
  | s, [] => (s, [])
  | s, o :: os => ((blockCalls (blockStep s o).1 os).1, (blockStep s o).2 ++ (blockCalls (blockStep s o).1 os).2)

end Verif.Times
