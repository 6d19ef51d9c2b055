import Verif.Model.RunnableGraph
import Verif.Model.Timer
/-
Model of the whole command buffer of a graph: the commands of Model/RunnableGraph.lean with the timestamps and debug blocks around
them.
Modelled code: /repo/source/RenderGraph/RunnablePass.cpp 363-501 (`recordInto`: 383-388 and 492-494),
/repo/source/RenderGraph/RunnableGraph.cpp 287-345 (`record`: 311-313 and 339-340), GraphContext.cpp 164-196 (debug blocks).
Simplifications: a debug block is named by the id of its pass (the text is "[id] group/name"; its colour is left out); both debug
extensions are one; the functions of the extensions are there.
-/
namespace Verif.Lab
open Verif.Rec Verif.Run Verif.Timer

/-- What a command buffer gets. -/
inductive Mark where
  /-- `vkCmdBeginDebugBlock`, named after a pass -/
  | label (pass : Nat)
  /-- `vkCmdEndDebugBlock` -/
  | endLabel
  /-- the timestamp commands -/
  | stamp (a : Act)
  /-- any other command -/
  | cmd (c : Cmd)

/-- A recording: its commands and context, the timers of the passes, the command buffer. -/
structure Full where
  frame : Frame
  timers : Nat → Timer
  marks : List Mark

/-- What was recorded between two moments. -/
def since (before after : Rec) : List Mark := (after.cmds.drop before.cmds.length).map .cmd

/-- `RunnablePass::recordInto`, RunnablePass.cpp:363-501: for an enabled pass, the debug block is begun (384), then
`m_timer.beginPass` (388), then the attachments, actions and record callback (390-490), `m_timer.endPass` (493), and the debug
block is ended (494). -/
def recordInto (env : Env) (G : GraphSt) (p : RunPass) (index : Nat) (f : Full) : Option Full :=
  match Run.recordInto env G p index f.frame with
  | none => none
  | some fr =>
    if env.enabled p.id then
      let b := step (f.timers p.id) .beginPass
      let e := step b.1 .endPass
      some ⟨fr, fun i => if i = p.id then e.1 else f.timers i,
        f.marks ++ [.label p.id] ++ b.2.map .stamp ++ since f.frame.recd fr.recd ++ e.2.map .stamp ++ [.endLabel]⟩
    else some ⟨fr, f.timers, f.marks⟩

/-- The `while` loop of `record`, RunnableGraph.cpp:315-337. -/
def recordLoop (env : Env) (G : GraphSt) (index : Nat → Nat) : List RunPass → Full → Option Full
  | [], f => some f
  | p :: next, f =>
    let fr : Frame := { f.frame with recd := { f.frame.recd with ctx := announce env G p next f.frame.recd.ctx } }
    match recordInto env G p (index p.id) { f with frame := fr } with
    | none => none
    | some f => recordLoop env G index next f

/-- What `record` leaves: the recording and the timer of the graph. -/
structure Recorded where
  full : Full
  timer : Timer

/-- `RunnableGraph::record`, RunnableGraph.cpp:287-345: `m_timer.beginPass` before the passes (313), `m_timer.endPass` after them
(339). -/
def record (env : Env) (G : GraphSt) (deps : List Ctx) (index : Nat → Nat) (passes : List RunPass)
    (initialised : Nat → Nat → Bool) (log : List Run.Event) (graph : Timer) (timers : Nat → Timer) : Option Recorded :=
  let c := firstAnnounce env.sepDS passes (startCtx deps)
  let b := step graph .beginPass
  match recordLoop env G index passes ⟨⟨⟨c, []⟩, initialised, log⟩, timers, b.2.map .stamp⟩ with
  | none => none
  | some f =>
    let e := step b.1 .endPass
    some ⟨{ f with marks := f.marks ++ e.2.map .stamp }, e.1⟩

end Verif.Lab
