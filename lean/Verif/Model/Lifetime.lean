/-
Model of the GPU objects a runnable graph owns, when the driver may refuse any creation.
Modelled code: /repo/source/RenderGraph/RunnableGraph.cpp:163-285 (constructor and destructor) with the member order of
/repo/include/RenderGraph/RunnableGraph.hpp:141-155; RunnablePass.cpp:130-164 (`Fence`), 202-241 (`PassData`), 245-262 and
299-304 (the pass's objects), 343-350 and 528-547 (the command buffer a pass is re-recorded into);
ResourceHandler.cpp:172-256 (images and views), 413-450 (their destruction), 520-531 and 543-565 (`ContextResourcesCache`).
Every creation is followed by `checkVkResult`, which throws if the driver refused
(/repo/source/RenderGraph/GraphContext.cpp, `checkVkResult`).
Simplifications: the functions of the context and the device are not null; a refused creation leaves the handle null
(as initialised); one thread. What the passes' own classes create (pipelines, descriptors, render passes) is in
`Model/Pipeline.lean` and `Model/RenderPass.lean`; here a pass's `initialise` is one call that may throw.
-/
namespace Verif.Life

/-- Kinds of GPU objects. A command buffer belongs to a pool. -/
inductive Kind where
  | queryPool
  | commandPool
  | fence
  | semaphore
  | commandBuffer (pool : Nat)
  | image
  | memory
  | view
  | sampler
  | buffer
deriving DecidableEq, Repr

/-- The driver: the number of calls it got, the objects that exist (handle and kind; the handle is the number of the call
that created it), and whether it was asked to destroy something that doesn't exist. -/
structure Drv where
  calls : Nat := 0
  live : List (Nat × Kind) := []
  misuse : Bool := false
deriving DecidableEq, Repr

/-- A call that creates an object; `refuse n` tells whether the `n`-th call fails. -/
def Drv.create (refuse : Nat → Bool) (k : Kind) (d : Drv) : Option Nat × Drv :=
  if refuse d.calls then (none, { d with calls := d.calls + 1 })
  else (some d.calls, { d with calls := d.calls + 1, live := d.live ++ [(d.calls, k)] })

/-- A call that may fail and creates nothing. -/
def Drv.call (refuse : Nat → Bool) (d : Drv) : Bool × Drv := (!refuse d.calls, { d with calls := d.calls + 1 })

/-- `vkDestroyXxx`, `vkFreeMemory`, `vkFreeCommandBuffers`. Destroying a command pool frees its command buffers. -/
def Drv.destroy (h : Nat) (d : Drv) : Drv :=
  if d.live.any (fun e => e.1 == h) then
    { d with live := d.live.filter fun e => e.1 != h && e.2 != .commandBuffer h }
  else { d with misuse := true }

/-- `if ( handle ) vkDestroyXxx( handle )`. -/
def Drv.destroyOpt (h : Option Nat) (d : Drv) : Drv := match h with
  | some h => d.destroy h
  | none => d

/-- The driver and the `ResourceHandler`: `m_images` (id → image and memory), `m_imageViews` (id → view). -/
structure St where
  drv : Drv := {}
  images : List (Nat × Option Nat × Option Nat) := []
  views : List (Nat × Option Nat) := []
deriving DecidableEq, Repr

def find {A : Type} (m : List (Nat × A)) (k : Nat) : Option A := (m.find? fun e => e.1 == k).map (·.2)
def erase {A : Type} (m : List (Nat × A)) (k : Nat) : List (Nat × A) := m.filter fun e => e.1 != k

/-- `ResourceHandler::createImage`, 172-227: the handle and whether it was created, or `none` if it throws. The entry is
inserted first and is not removed when the driver refuses the image, its memory or the binding. -/
def createImage (refuse : Nat → Bool) (i : Nat) (s : St) : Option (Option Nat × Bool) × St :=
  match find s.images i with
  | some e => (some (e.1, false), s)
  | none =>
    match s.drv.create refuse .image with
    | (none, d) => (none, { s with drv := d, images := s.images ++ [(i, none, none)] })
    | (some h, d) =>
      match d.create refuse .memory with
      | (none, d) => (none, { s with drv := d, images := s.images ++ [(i, some h, none)] })
      | (some m, d) =>
        match d.call refuse with
        | (false, d) => (none, { s with drv := d, images := s.images ++ [(i, some h, some m)] })
        | (true, d) => (some (some h, true), { s with drv := d, images := s.images ++ [(i, some h, some m)] })

/-- `ResourceHandler::createImageView`, 229-256, for a view of image `i`: the entry is inserted first; whether the image
was created is ignored. -/
def createView (refuse : Nat → Bool) (v i : Nat) (s : St) : Option (Option Nat × Bool) × St :=
  match find s.views v with
  | some h => (some (h, false), s)
  | none =>
    match createImage refuse i s with
    | (none, s) => (none, { s with views := s.views ++ [(v, none)] })
    | (some _, s) =>
      match s.drv.create refuse .view with
      | (none, d) => (none, { s with drv := d, views := s.views ++ [(v, none)] })
      | (some h, d) => (some (some h, true), { s with drv := d, views := s.views ++ [(v, some h)] })

/-- `ResourceHandler::destroyImage`, 413-433: the memory first. -/
def destroyImage (i : Nat) (s : St) : St :=
  match find s.images i with
  | some (h, m) => { s with drv := (s.drv.destroyOpt m).destroyOpt h, images := erase s.images i }
  | none => s

/-- `ResourceHandler::destroyImageView`, 435-450. -/
def destroyView (v : Nat) (s : St) : St :=
  match find s.views v with
  | some h => { s with drv := s.drv.destroyOpt h, views := erase s.views v }
  | none => s

/-- `RunnablePass::PassData`: its fence (a member with a destructor), its semaphore, the command buffer it is re-recorded
into (allocated on first use). -/
structure PassData where
  fence : Nat
  semaphore : Nat
  commandBuffer : Option Nat := none
deriving DecidableEq, Repr

/-- The members of a `RunnableGraph`, RunnableGraph.hpp:141-155, as far as they have been initialised: the keys of
`m_resources`, `m_timerQueries`, `m_commandPool`, `m_passes`, `m_commandBuffer`, `m_semaphore`, `m_fence`. -/
structure Graph where
  images : List Nat := []
  views : List Nat := []
  queryPool : Option Nat := none
  commandPool : Option Nat := none
  passes : List (List PassData) := []
  commandBuffer : Option Nat := none
  semaphore : Option Nat := none
  fence : Option Nat := none
deriving DecidableEq, Repr

/-- What a `RunnableGraph` is built from: the images and the views (with their image) of the frame graph, and for each
pass the number of its indices and whether it is enabled. -/
structure Shape where
  images : List Nat
  views : List (Nat × Nat)
  passes : List (Nat × Bool)

/-- Part of the constructor: `false` when an exception is thrown. -/
abbrev Step := Graph × St → Bool × Graph × St

def Step.then (a b : Step) : Step := fun x => match a x with
  | (true, y) => b y
  | (false, y) => (false, y)

/-- A loop. -/
def Step.all {A : Type} (f : A → Step) : List A → Step
  | [] => fun x => (true, x)
  | a :: as => (f a).then (Step.all f as)

/-- Creates an object and stores it. -/
def Step.object (refuse : Nat → Bool) (k : Graph → Kind) (set : Graph → Nat → Graph) : Step := fun (g, s) =>
  match s.drv.create refuse (k g) with
  | (none, d) => (false, g, { s with drv := d })
  | (some h, d) => (true, set g h, { s with drv := d })

/-- `m_resources.createImage`, `ContextResourcesCache::createImage` 543-553: the id is kept only if the image was created
by this call. -/
def imageStep (refuse : Nat → Bool) (i : Nat) : Step := fun (g, s) =>
  match createImage refuse i s with
  | (none, s) => (false, g, s)
  | (some (_, true), s) => (true, { g with images := if i ∈ g.images then g.images else g.images ++ [i] }, s)
  | (some (_, false), s) => (true, g, s)

/-- `m_resources.createImageView`, 555-565. -/
def viewStep (refuse : Nat → Bool) (v : Nat × Nat) : Step := fun (g, s) =>
  match createView refuse v.1 v.2 s with
  | (none, s) => (false, g, s)
  | (some (_, true), s) => (true, { g with views := if v.1 ∈ g.views then g.views else g.views ++ [v.1] }, s)
  | (some (_, false), s) => (true, g, s)

/-- `~PassData`, RunnablePass.cpp:223-241 (semaphore, command buffer), then its member `fence`. -/
def PassData.destroy (d : Drv) (p : PassData) : Drv :=
  ((d.destroy p.semaphore).destroyOpt p.commandBuffer).destroy p.fence

/-- `RunnablePass::RunnablePass`, RunnablePass.cpp:258-262, with the constructor of `PassData`, 202-221: `n` more elements
of the pass's `m_passes`, after `acc`. If the driver refuses the semaphore, the destructor of the member `fence` runs; if
anything is refused, the elements already made are destroyed with the vector. -/
def makePass (refuse : Nat → Bool) : Nat → List PassData → Drv → Option (List PassData) × Drv
  | 0, acc, d => (some acc, d)
  | n + 1, acc, d =>
    match d.create refuse .fence with
    | (none, d) => (none, acc.foldl PassData.destroy d)
    | (some f, d) =>
      match d.create refuse .semaphore with
      | (none, d) => (none, acc.foldl PassData.destroy (d.destroy f))
      | (some h, d) => makePass refuse n (acc ++ [⟨f, h, none⟩]) d

/-- `m_passes.push_back( createRunnable )`, RunnableGraph.cpp:247-255. -/
def passStep (refuse : Nat → Bool) (n : Nat) : Step := fun (g, s) =>
  match makePass refuse n [] s.drv with
  | (none, d) => (false, g, { s with drv := d })
  | (some p, d) => (true, { g with passes := g.passes ++ [p] }, { s with drv := d })

/-- `if ( pass->isEnabled() ) pass->initialise( … )`, RunnableGraph.cpp:259-265. -/
def initStep (refuse : Nat → Bool) (enabled : Bool) : Step := fun (g, s) =>
  if enabled then
    let r := s.drv.call refuse
    (r.1, g, { s with drv := r.2 })
  else (true, g, s)

/-- The initialisers of the members that own something, RunnableGraph.cpp:174-195, in this order: query pool, command pool, fence. -/
def membersStep (refuse : Nat → Bool) : Step :=
  ((Step.object refuse (fun _ => .queryPool) (fun g h => { g with queryPool := some h })).then
    (Step.object refuse (fun _ => .commandPool) (fun g h => { g with commandPool := some h }))).then
    (Step.object refuse (fun _ => .fence) (fun g h => { g with fence := some h }))

/-- The body of the constructor, RunnableGraph.cpp:197-265. -/
def bodyStep (refuse : Nat → Bool) (sh : Shape) : Step :=
  (Step.object refuse (fun _ => .semaphore) (fun g h => { g with semaphore := some h })).then
    ((Step.object refuse (fun g => .commandBuffer (g.commandPool.getD 0)) (fun g h => { g with commandBuffer := some h })).then
      ((Step.all (imageStep refuse) sh.images).then
        ((Step.all (viewStep refuse) sh.views).then
          ((Step.all (passStep refuse) (sh.passes.map (·.1))).then
            (Step.all (initStep refuse) (sh.passes.map (·.2)))))))

/-- `~ContextResourcesCache`, ResourceHandler.cpp:520-531: the views, then the images. -/
def closeCache (g : Graph) (s : St) : St :=
  g.images.foldl (fun s i => destroyImage i s) (g.views.foldl (fun s v => destroyView v s) s)

/-- The destruction of the members, in the reverse order of their declaration, RunnableGraph.hpp:141-155: fence, passes,
command pool, query pool, resources. `m_semaphore` and `m_commandBuffer` are plain handles. -/
def destroyMembers (g : Graph) (s : St) : St :=
  let d := s.drv.destroyOpt g.fence
  let d := g.passes.foldl (fun d p => p.foldl PassData.destroy d) d
  let d := d.destroyOpt g.commandPool
  let d := d.destroyOpt g.queryPool
  closeCache g { s with drv := d }

/-- `~RunnableGraph`, RunnableGraph.cpp:267-285, then the members. -/
def destroyGraph (g : Graph) (s : St) : St :=
  destroyMembers g { s with drv := (s.drv.destroyOpt g.semaphore).destroyOpt g.commandBuffer }

/-- `new RunnableGraph`: the graph, or `none` if the constructor throws; in this case the members initialised so far are
destroyed, and the destructor's body is not executed. -/
def construct (refuse : Nat → Bool) (sh : Shape) (s : St) : Option Graph × St :=
  match ((membersStep refuse).then (bodyStep refuse sh)) ({}, s) with
  | (true, g, s) => (some g, s)
  | (false, g, s) => (none, destroyMembers g s)

/-- `RunnablePass::reRecordCurrent` of pass `p` for index `i`, RunnablePass.cpp:326-350 and 528-547: the command buffer is
allocated on first use; nothing changes if the driver refuses it. -/
def reRecord (refuse : Nat → Bool) (p i : Nat) (g : Graph) (s : St) : Graph × St :=
  match g.passes[p]? with
  | none => (g, s)
  | some q =>
    match q[i]? with
    | none => (g, s)
    | some x =>
      match x.commandBuffer with
      | some _ => (g, s)
      | none =>
        match s.drv.create refuse (.commandBuffer (g.commandPool.getD 0)) with
        | (none, d) => (g, { s with drv := d })
        | (some h, d) =>
          ({ g with passes := g.passes.set p (q.set i { x with commandBuffer := some h }) }, { s with drv := d })

/-! ### Samplers and quad vertex buffers of a `ContextResourcesCache` -/

/-- `m_samplers` and `m_vertexBuffers` of the cache: hash → sampler, hash → vertex buffer (`none` is a null pointer); the
vertex buffers of the handler: buffer and memory. -/
structure Slots where
  drv : Drv := {}
  samplers : List (Nat × Option Nat) := []
  quads : List (Nat × Option (Nat × Nat)) := []

/-- The outcome of a request: an exception, a null pointer followed (undefined behaviour), a result. -/
inductive Out (A : Type) where
  | throws
  | nullDeref
  | ok (a : A)
deriving DecidableEq, Repr

/-- `ContextResourcesCache::createSampler`, ResourceHandler.cpp:593-607, with `ResourceHandler::createSampler`, 258-300: the
null entry is inserted first. The result is the handle, possibly null. -/
def getSampler (refuse : Nat → Bool) (k : Nat) (s : Slots) : Out (Option Nat) × Slots :=
  match find s.samplers k with
  | some h => (.ok h, s)
  | none =>
    match s.drv.create refuse .sampler with
    | (none, d) => (.throws, { s with drv := d, samplers := s.samplers ++ [(k, none)] })
    | (some h, d) => (.ok (some h), { s with drv := d, samplers := s.samplers ++ [(k, some h)] })

/-- `ContextResourcesCache::createQuadTriVertexBuffer`, 609-623, with `ResourceHandler::createQuadTriVertexBuffer`, 302-411:
the null entry is inserted first; the buffer, its memory, the binding and the mapping may be refused, the `VertexBuffer`
that holds the handles is then deleted. The reference returned is `*it->second`. -/
def getQuad (refuse : Nat → Bool) (k : Nat) (s : Slots) : Out (Nat × Nat) × Slots :=
  match find s.quads k with
  | some (some b) => (.ok b, s)
  | some none => (.nullDeref, s)
  | none =>
    match s.drv.create refuse .buffer with
    | (none, d) => (.throws, { s with drv := d, quads := s.quads ++ [(k, none)] })
    | (some h, d) =>
      match d.create refuse .memory with
      | (none, d) => (.throws, { s with drv := d, quads := s.quads ++ [(k, none)] })
      | (some m, d) =>
        match d.call refuse with
        | (false, d) => (.throws, { s with drv := d, quads := s.quads ++ [(k, none)] })
        | (true, d) =>
          match d.call refuse with
          | (false, d) => (.throws, { s with drv := d, quads := s.quads ++ [(k, none)] })
          | (true, d) => (.ok (h, m), { s with drv := d, quads := s.quads ++ [(k, some (h, m))] })

/-- `~ContextResourcesCache`, 532-540: the samplers, the vertex buffers (memory first, 478-507). -/
def Slots.close (s : Slots) : Drv :=
  s.quads.foldl (fun d e => match e.2 with
    | some (h, m) => (d.destroy m).destroy h
    | none => d) (s.samplers.foldl (fun d e => d.destroyOpt e.2) s.drv)

/-- A request. -/
inductive Ask where
  | sampler (k : Nat)
  | quad (k : Nat)

def ask (refuse : Nat → Bool) (s : Slots) : Ask → Slots
  | .sampler k => (getSampler refuse k s).2
  | .quad k => (getQuad refuse k s).2

def asks (refuse : Nat → Bool) (s : Slots) (l : List Ask) : Slots := l.foldl (ask refuse) s

/-- What a user does with runnable graphs: the driver, the handler, and the graphs that exist, by number. -/
structure World where
  st : St := {}
  graphs : List (Nat × Graph) := []

inductive Op where
  /-- make a runnable graph, called `n` -/
  | create (n : Nat) (sh : Shape)
  | reRecord (n p i : Nat)
  | destroy (n : Nat)

def step (refuse : Nat → Bool) (w : World) : Op → World
  | .create n sh =>
    match find w.graphs n with
    | some _ => w
    | none =>
      match construct refuse sh w.st with
      | (some g, s) => { st := s, graphs := w.graphs ++ [(n, g)] }
      | (none, s) => { w with st := s }
  | .reRecord n p i =>
    match find w.graphs n with
    | some g =>
      let r := reRecord refuse p i g w.st
      { st := r.2, graphs := w.graphs.map fun e => if e.1 == n then (n, r.1) else e }
    | none => w
  | .destroy n =>
    match find w.graphs n with
    | some g => { st := destroyGraph g w.st, graphs := erase w.graphs n }
    | none => w

def run (refuse : Nat → Bool) (w : World) (ops : List Op) : World := ops.foldl (step refuse) w

end Verif.Life
