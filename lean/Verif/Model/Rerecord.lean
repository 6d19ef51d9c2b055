import Verif.Model.RunnableGraph
/-
Model of passes recorded again on their own.
Modelled code: /repo/source/RenderGraph/RunnablePass.cpp (constructor 253-257, reRecordCurrent 326-340, recordOne 342-361,
recordInto 363-501) and what `RunnableGraph::record` (RunnableGraph.cpp 287-345) does to the snapshots.
Not modelled: the fence of the pass (created signalled and never given to a submission: waiting for it returns at once),
timers (Model/Timer.lean), debug blocks (Model/Labels.lean).
-/
namespace Verif.Rerec
open Verif.Rec Verif.Att Verif.Run

/-- `m_passContexts` of all passes, by pass id and index. -/
abbrev Snaps := Nat → Nat → Ctx

/-- `m_passContexts[index] = context`, RunnablePass.cpp:367-370. -/
def Snaps.keep (s : Snaps) (p i : Nat) (c : Ctx) : Snaps := fun q j => if q = p ∧ j = i then c else s q j

/-- `RunnablePass::recordInto`, RunnablePass.cpp:363-501, with the snapshot; `resettable`: `ruConfig.resettable`, by pass. -/
def recordInto (resettable : Nat → Bool) (env : Env) (G : GraphSt) (p : RunPass) (index : Nat) (s : Snaps) (f : Frame) :
    Option (Snaps × Frame) :=
  let s := if resettable p.id then s.keep p.id index f.recd.ctx else s
  (Run.recordInto env G p index f).map fun f => (s, f)

/-- The `while` loop of `RunnableGraph::record`, RunnableGraph.cpp:316-337, as `Run.recordLoop`, with the snapshots. -/
def recordLoop (resettable : Nat → Bool) (env : Env) (G : GraphSt) (index : Nat → Nat) :
    List RunPass → Snaps → Frame → Option (Snaps × Frame)
  | [], s, f => some (s, f)
  | p :: next, s, f =>
    let f : Frame := { f with recd := { f.recd with ctx := announce env G p next f.recd.ctx } }
    match recordInto resettable env G p (index p.id) s f with
    | none => none
    | some (s, f) => recordLoop resettable env G index next s f

/-- A graph between two operations: what it remembers, which passes are initialised, the snapshots, the command buffer of the
graph (`m_commandBuffer` of RunnableGraph) and those of the passes (`m_passes[index].commandBuffer`, none until created,
RunnablePass.cpp:346-349). -/
structure St where
  G : GraphSt
  initialised : Nat → Nat → Bool
  log : List Event
  snaps : Snaps
  main : List Cmd
  own : Nat → Nat → Option (List Cmd)

/-- What the user does. The passes are given with each operation, as their callbacks behave at that moment. -/
inductive Op where
  /-- `RunnableGraph::record()` -/
  | record (env : Env) (index : Nat → Nat) (deps : List Ctx) (passes : List RunPass)
  /-- `RunnablePass::reRecordCurrent()`; `index` is what `getPassIndex` answers -/
  | reRecord (env : Env) (index : Nat) (p : RunPass)

/-- One operation; `none` is undefined behaviour (or a failed assertion). `record` as `Run.record`. `reRecordCurrent`,
RunnablePass.cpp:326-361: if the index is in range, the pass is recorded alone in its own command buffer, which is begun (so
emptied), with a copy of the snapshot. The copy is dropped at the end. -/
def step (resettable : Nat → Bool) (h : St) : Op → Option St
  | .record env index deps passes =>
    let c := firstAnnounce env.sepDS passes (startCtx deps)
    match recordLoop resettable env h.G index passes h.snaps ⟨⟨c, []⟩, h.initialised, h.log⟩ with
    | none => none
    | some (s, f) =>
      some { h with G := { h.G with final := f.recd.ctx }, initialised := f.initialised, log := f.log, snaps := s,
                    main := f.recd.cmds }
  | .reRecord env index p =>
    if resettable p.id then
      if index < p.maxPassCount then
        match recordInto resettable env h.G p index h.snaps ⟨⟨h.snaps p.id index, []⟩, h.initialised, h.log⟩ with
        | none => none
        | some (s, f) =>
          some { h with initialised := f.initialised, log := f.log, snaps := s,
                        own := fun q j => if q = p.id ∧ j = index then some f.recd.cmds else h.own q j }
      else some h
    else none

/-- A sequence of operations. -/
def steps (resettable : Nat → Bool) (h : St) : List Op → Option St
  | [] => some h
  | o :: os => match step resettable h o with | none => none | some h => steps resettable h os

/-- A graph just made, RunnablePass.cpp:253-257: empty snapshots, no command buffer of its own for any pass. -/
def start (G : GraphSt) (initialised : Nat → Nat → Bool) (log : List Event) : St :=
  ⟨G, initialised, log, fun _ _ => Ctx.new, [], fun _ _ => none⟩

end Verif.Rerec
