import Verif.Model.Pipeline
/-
Model of what the passes of several graphs make, use, replace and destroy on the device while submissions are in flight.
Modelled code: /repo/source/RenderGraph/RunnableGraph.cpp:287-345 (`record`), 362-393 (`run`); RunnablePass.cpp:166-198 (the fence of
the graph), 326-361 (`reRecordCurrent`, `recordOne`); RunnablePasses/ComputePass.cpp:51-58, RenderQuad.cpp:40-65, RenderMesh.cpp:40-66
(`resetPipeline`, `doRecordInto`); RunnablePasses/RenderPassHolder.cpp:115-186 (`PassData::cleanup`, `initialise`);
RunnablePasses/PipelineHolder.cpp (Model/Pipeline.lean); include/RenderGraph/GraphContext.hpp:345-369 (`DeletionQueue`);
RunnableGraph.cpp:267-285 (`~RunnableGraph`), RunnableGraph.hpp:141-155 (its members), RunnablePass.cpp:158-167 (`~Fence`).
Simplifications: the passes are compute, quad and mesh passes; a render pass and its framebuffer, which are made and destroyed
together, are one object; the order of the calls inside one recording is that of the objects of the render pass first, then those
of the pipeline holder; `Fence::reset` follows the wait of `record` and does not wait again (Model/Sync.lean); the driver refuses
nothing; what a graph owns besides its passes (Part) exists from the start, and the fences, semaphores, command buffers and timers of
the passes, which no submission of a graph uses, are left out. Whether a pass has to prepare its objects (`fresh`) is an input here; Model/RenderPass.lean and Model/Drawing.lean say when.
-/
namespace Verif.Flight
open Verif.Pipe (Kind Ev)

/-- An object of pass `pass` of graph `graph`; handles are those of the pass (Model/Pipeline.lean). -/
structure Obj where
  graph : Nat
  pass : Nat
  handle : Nat
deriving DecidableEq, Repr

/-- What a graph owns besides its passes: `m_semaphore`, `m_commandBuffer`, `m_fence`, `m_commandPool`, `m_timerQueries`,
RunnableGraph.hpp:147-154. -/
inductive Part where
  | semaphore | commandBuffer | fence | commandPool | queryPool
deriving DecidableEq, Repr

/-- Driver calls. -/
inductive Call where
  /-- `vkWaitForFences` on the fence of the graph, without limit -/
  | waitForever (g : Nat)
  | resetFence (g : Nat)
  /-- `vkResetCommandBuffer` of the command buffer of the graph -/
  | resetCmd (g : Nat)
  /-- `vkQueueSubmit` of the command buffer of the graph, whose commands use these objects -/
  | submit (g : Nat) (uses : List Obj)
  | destroy (o : Obj)
  /-- `vkUpdateDescriptorSets` -/
  | update (o : Obj)
  /-- `vkDestroySemaphore`, `vkFreeCommandBuffers`, `vkDestroyFence`, `vkDestroyCommandPool`, `vkDestroyQueryPool` -/
  | free (p : Part) (g : Nat)
deriving DecidableEq, Repr

/-- A pass: its pipeline holder, and the render pass (with framebuffer) of each index, 0 for none (`m_passes`,
RenderPassHolder.hpp:94). -/
structure PassSt where
  kind : Kind
  pipe : Pipe.St
  targets : List Nat

/-- A pass just made, with room for `n` indices. -/
def PassSt.new (kind : Kind) (images buffers : List Att.Attachment) (programs : List Nat)
    (creator : Option (Nat × (Nat → Nat))) (n : Nat) : PassSt :=
  ⟨kind, Pipe.St.new images buffers programs creator n, List.replicate n 0⟩

/-- All the graphs of a context: their passes, and `GraphContext::delQueue` (GraphContext.hpp:394). -/
structure St where
  passes : Nat → Nat → PassSt
  queue : List Obj

/-- What a call of the holder destroys. The sets go with their pool. -/
def destroyed : Ev → Option Nat
  | .destroySetLayout h | .destroyPipeLayout h | .destroyPool h | .destroyPipe h => some h
  | _ => none

/-- The descriptor set a call of the holder changes. -/
def written : Ev → Option Nat
  | .write h _ => some h
  | _ => none

/-- The objects a recorded command of the holder uses: the pipeline, its layout and the set, with the set's pool and layout. -/
def used (s : Pipe.St) : Ev → List Nat
  | .bind p l x => [p, l, x, s.pool, s.setLayout]
  | _ => []

/-- A driver call made by the holder of pass `k` of graph `g`. -/
def evCall (g k : Nat) (e : Ev) : Option Call :=
  match destroyed e with
  | some h => some (.destroy ⟨g, k, h⟩)
  | none => (written e).map fun h => .update ⟨g, k, h⟩

/-- What one pass did: its new state, the calls, what it scheduled for destruction, what the recorded commands use. -/
structure Did where
  pass : PassSt
  calls : List Call
  pushed : List Obj
  uses : List Obj

/-- What the holder did on its way from `s` to `s'`: its new calls; what it scheduled goes to the queue of the context. -/
def holderCalls (g k : Nat) (s s' : Pipe.St) : List Call := (s'.evs.drop s.evs.length).filterMap (evCall g k)

/-- `PassData::cleanup` for an index, RenderPassHolder.cpp:115-136: destroys the render pass, if there is one. -/
def cleanupTarget (g k : Nat) (P : PassSt) (i : Nat) : List Call :=
  match P.targets[i]? with
  | some h => if h = 0 then [] else [.destroy ⟨g, k, h⟩]
  | none => []

/-- `doRecordInto` of the pass (and, for a compute pass, `doInitialise`), for an index; `fresh`: the compute pass was not
initialised for that index (RunnablePass.cpp:376-379), or `RenderPassHolder::initialise` (RenderPassHolder.cpp:160-186) does not find
the render pass suitable. A new render pass takes the handle the device answers next (`Pipe.St.prepare`). -/
def recordPass (g k : Nat) (P : PassSt) (i : Nat) (fresh : Bool) : Option Did :=
  (Pipe.exec P.kind P.pipe (.record i fresh)).map fun s =>
    let rebuilt := fresh && P.kind != .compute
    let targets := if rebuilt then P.targets.set i P.pipe.next else P.targets
    let binds := (s.evs.drop P.pipe.evs.length).flatMap (used s)
    let target := if P.kind != .compute then (targets[i]?).toList else []
    { pass := ⟨P.kind, { s with queue := [] }, targets⟩
      calls := (if rebuilt then cleanupTarget g k P i else []) ++ holderCalls g k P.pipe s
      pushed := s.queue.map fun h => ⟨g, k, h⟩
      uses := ((target ++ binds).filter (· ≠ 0)).map fun h => ⟨g, k, h⟩ }

/-- `resetPipeline` of the holder and of the pass, without the re-recording. -/
def resetPass (g k : Nat) (P : PassSt) (program i : Nat) : Option Did :=
  (Pipe.exec P.kind P.pipe (.reset program i)).map fun s =>
    { pass := ⟨P.kind, { s with queue := [] }, P.targets⟩
      calls := holderCalls g k P.pipe s
      pushed := s.queue.map fun h => ⟨g, k, h⟩
      uses := [] }

/-- Assignment of a pass. -/
def St.put (s : St) (g k : Nat) (D : Did) : St :=
  ⟨fun g' k' => if g' = g ∧ k' = k then D.pass else s.passes g' k', s.queue ++ D.pushed⟩

/-- The passes a recording of graph `g` records, in order: which one, for which index, whether it prepares its objects. -/
abbrev Recs := List (Nat × Nat × Bool)

/-- The loop of `RunnableGraph::record`, RunnableGraph.cpp:316-337, over the enabled passes: the calls, and what the command
buffer uses. -/
def recordPasses (g : Nat) : Recs → St → Option (St × List Call × List Obj)
  | [], s => some (s, [], [])
  | (k, i, fresh) :: rs, s =>
    (recordPass g k (s.passes g k) i fresh).bind fun D =>
    (recordPasses g rs (s.put g k D)).map fun r => (r.1, D.calls ++ r.2.1, D.uses ++ r.2.2)

/-- The destruction of a pass: `~RenderPassHolder`, RenderPassHolder.cpp:154-160, destroys the render passes there are;
`~PipelineHolder`, PipelineHolder.cpp:42-45, cleans up. -/
def destroyPass (g k : Nat) (P : PassSt) : Did :=
  let s := P.pipe.cleanup
  { pass := ⟨P.kind, { s with queue := [] }, P.targets.map fun _ => 0⟩
    calls := ((P.targets.filter (· ≠ 0)).map fun h => .destroy ⟨g, k, h⟩) ++ holderCalls g k P.pipe s
    pushed := s.queue.map fun h => ⟨g, k, h⟩
    uses := [] }

/-- The destruction of `m_passes` (RunnableGraph.hpp:150). -/
def destroyPasses (g : Nat) : List Nat → St → St × List Call
  | [], s => (s, [])
  | k :: ks, s =>
    let D := destroyPass g k (s.passes g k)
    let r := destroyPasses g ks (s.put g k D)
    (r.1, D.calls ++ r.2)

/-- What the user does. -/
inductive Op where
  /-- `getFence().wait( 0xFFFFFFFFFFFFFFFF )` -/
  | wait (g : Nat)
  /-- `RunnableGraph::record` -/
  | record (g : Nat) (rs : Recs)
  /-- `RunnableGraph::run` -/
  | run (g : Nat) (rs : Recs)
  /-- `resetPipeline( program, index )` of pass `k` of graph `g`; `again`: the index the pass is recorded for again by
  `reRecordCurrent`, and whether it prepares its objects; none if the pass is disabled or the index out of range -/
  | reset (g k program index : Nat) (again : Option (Nat × Bool))
  /-- the graph is destroyed; `ks`: its passes, in the order of their destruction -/
  | destroy (g : Nat) (ks : List Nat)
deriving DecidableEq, Repr

/-- `RunnableGraph::record`, RunnableGraph.cpp:287-345: line 309 waits, line 310 resets the command buffer, then the passes. -/
def record (g : Nat) (rs : Recs) (s : St) : Option (St × List Call × List Obj) :=
  (recordPasses g rs s).map fun r => (r.1, [.waitForever g, .resetCmd g] ++ r.2.1, r.2.2)

/-- `RunnableGraph::run`, RunnableGraph.cpp:362-393: record (365), reset the fence (385), execute the deletion queue (386), submit. -/
def run (g : Nat) (rs : Recs) (s : St) : Option (St × List Call) :=
  (record g rs s).map fun r =>
    ({ r.1 with queue := [] }, r.2.1 ++ [.resetFence g] ++ r.1.queue.map .destroy ++ [.submit g r.2.2])

/-- `resetPipeline` of a pass, ComputePass.cpp:51-58, RenderQuad.cpp:40-47, RenderMesh.cpp:40-47: the holder's, then
`reRecordCurrent` (RunnablePass.cpp:326-361), which records the pass in a command buffer that is never submitted, and waits for
the fence of the pass, which is given to no submission. -/
def reset (g k program index : Nat) (again : Option (Nat × Bool)) (s : St) : Option (St × List Call) :=
  (resetPass g k (s.passes g k) program index).bind fun D =>
  let s := s.put g k D
  match again with
  | none => some (s, D.calls)
  | some (i, fresh) => (recordPass g k (s.passes g k) i fresh).map fun E => (s.put g k E, D.calls ++ E.calls)

/-- `~RunnableGraph`, RunnableGraph.cpp:267-285: the semaphore and the command buffer; then the members, the last one first: the fence,
the passes, the command pool, the query pool. Nothing is waited for. -/
def destroy (g : Nat) (ks : List Nat) (s : St) : St × List Call :=
  let r := destroyPasses g ks s
  (r.1, [.free .semaphore g, .free .commandBuffer g, .free .fence g] ++ r.2 ++ [.free .commandPool g, .free .queryPool g])

/-- One user call; `none`: a failed assertion or an out of range access. -/
def step (s : St) : Op → Option (St × List Call)
  | .wait g => some (s, [.waitForever g])
  | .record g rs => (record g rs s).map fun r => (r.1, r.2.1)
  | .run g rs => run g rs s
  | .reset g k program index again => reset g k program index again s
  | .destroy g ks => some (destroy g ks s)

/-- A program: the state it ends in and the driver calls it made. -/
def exec (s : St) : List Op → Option (St × List Call)
  | [] => some (s, [])
  | o :: os => (step s o).bind fun r => (exec r.1 os).map fun r' => (r'.1, r.2 ++ r'.2)

end Verif.Flight
