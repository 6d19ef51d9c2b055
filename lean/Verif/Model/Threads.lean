import Verif.Model.Resources
/-
Model of a resource handler shared by threads.
Modelled code: /repo/source/RenderGraph/ResourceHandler.cpp:142-511, with its four mutexes (ResourceHandler.hpp:60-70): every
access to a container is a step of its own, and steps of different threads come in any order. /repo/include/RenderGraph/Signal.hpp:170-175
(`connect`, which takes no mutex).
Simplifications: the driver always succeeds; what it returns is a parameter of the call. Device memory is not shown, as in
Model/Resources.lean. The registration of objects in the context (GraphContext.cpp:328, 368) and the logger, each with a mutex of its own that
is released before anything else is done, are left out.
-/
namespace Verif.Thr

open Res (ViewData tryEmplace find erase)

/-- `m_viewsMutex`, `m_imagesMutex`, `m_samplersMutex`, `m_buffersMutex`. -/
inductive Mutex where
  | views | images | samplers | buffers
deriving DecidableEq, Repr

/-- What `m_imagesMutex` protects: `m_imageIds`, `m_images` (handle 0: null). -/
structure Images where
  ids : List (Nat × Nat) := []
  made : List (Nat × Nat) := []

/-- What `m_viewsMutex` protects: `m_imageViewIds`, `m_imageViews`. -/
structure Views where
  ids : List (Nat × ViewData) := []
  made : List (Nat × Nat) := []

/-- What a mutex protects. -/
def Comp : Mutex → Type
  | .views => Views
  | .images => Images
  | .samplers => List Nat
  | .buffers => List Nat

/-- The members of the handler. -/
abbrev Mem := (m : Mutex) → Comp m

def setComp (M : Mem) (m : Mutex) (x : Comp m) : Mem := fun n => if h : n = m then h ▸ x else M n

/-- A call of the driver: creation of an object of a kind (a view: of an image), destruction. -/
inductive Event where
  | create (kind : Mutex) (handle : Nat) (image : Option Nat)
  | destroy (kind : Mutex) (handle : Nat)
deriving DecidableEq, Repr

/-- What a call returns: id or handle, and whether it was created. -/
abbrev Res := Nat × Bool

/-- The rest of a function. -/
inductive Prog where
  /-- `return` -/
  | ret (r : Res)
  /-- a `lock_type` is constructed -/
  | lock (m : Mutex) (k : Prog)
  /-- a `lock_type` is destroyed -/
  | unlock (m : Mutex) (k : Prog)
  /-- a container is read and changed; the rest depends on what was read -/
  | access (m : Mutex) (f : Comp m → Comp m) (k : Comp m → Prog)
  /-- a call of the driver -/
  | driver (e : Event) (k : Prog)

/-- The methods of `ResourceHandler`. `h`, `h'`: what the driver returns if it is asked. -/
inductive Call where
  | imageId (d : Nat)
  | viewId (v : ViewData)
  | createImage (i h : Nat)
  | createView (v i h h' : Nat)
  | createSampler (h : Nat)
  | createBuffer (h : Nat)
  | destroyImage (i : Nat)
  | destroyView (v : Nat)
  | destroySampler (h : Nat)
  | destroyBuffer (h : Nat)

/-- `it->second = …`. -/
def setEntry (m : List (Nat × Nat)) (k h : Nat) : List (Nat × Nat) := m.map fun e => if e.1 = k then (k, h) else e

/-- `createImage`, 176-234, up to the end of the block, then `k`. -/
def imageProg (i h : Nat) (k : Res → Prog) : Prog :=
  .lock .images <|
  .access .images (fun c : Images => { c with made := tryEmplace c.made i 0 }) fun c : Images =>
  match find c.made i with
  | some x => .unlock .images (k (x, false))
  | none =>
    .driver (.create .images h none) <|
    .access .images (fun c : Images => { c with made := setEntry c.made i h }) fun _ =>
    .unlock .images (k (h, true))

/-- The bodies. -/
def code : Call → Prog
  | .imageId d => -- 142-149
    .lock .images <|
    .access .images (fun c : Images => c) fun c : Images =>
    .access .images (fun c' : Images => { c' with ids := tryEmplace c'.ids ((c.ids.length + 1) % 2 ^ 32) d }) fun _ =>
    .unlock .images (.ret ((c.ids.length + 1) % 2 ^ 32, true))
  | .viewId v => -- 151-175
    .lock .views <|
    .access .views (fun c : Views => c) fun c : Views =>
    match c.ids.find? (fun e => e.2.desc == v.desc) with
    | some e => .unlock .views (.ret (e.1, false))
    | none =>
      .access .views (fun c : Views => c) fun c : Views =>
      .access .views (fun c' : Views => { c' with ids := tryEmplace c'.ids ((c.ids.length + 1) % 2 ^ 32) v }) fun _ =>
      .unlock .views (.ret ((c.ids.length + 1) % 2 ^ 32, true))
  | .createImage i h => imageProg i h .ret
  | .createView v i h h' => -- 236-264
    .lock .views <|
    .access .views (fun c : Views => { c with made := tryEmplace c.made v 0 }) fun c : Views =>
    match find c.made v with
    | some x => .unlock .views (.ret (x, false))
    | none =>
      imageProg i h fun r =>
      .driver (.create .views h' (some r.1)) <|
      .access .views (fun c : Views => { c with made := setEntry c.made v h' }) fun _ =>
      .unlock .views (.ret (h', true))
  | .createSampler h => -- 266-304
    .lock .samplers <|
    .driver (.create .samplers h none) <|
    .access .samplers (fun c : List Nat => if h ∈ c then c else c ++ [h]) fun _ =>
    .unlock .samplers (.ret (h, true))
  | .createBuffer h => -- 306-415
    .lock .buffers <|
    .driver (.create .buffers h none) <|
    .access .buffers (fun c : List Nat => if h ∈ c then c else c ++ [h]) fun _ =>
    .unlock .buffers (.ret (h, true))
  | .destroyImage i => -- 417-437
    .lock .images <|
    .access .images (fun c : Images => c) fun c : Images =>
    match find c.made i with
    | some x =>
      .driver (.destroy .images x) <|
      .access .images (fun c : Images => { c with made := erase c.made i }) fun _ =>
      .unlock .images (.ret (x, true))
    | none => .unlock .images (.ret (0, false))
  | .destroyView v => -- 439-454
    .lock .views <|
    .access .views (fun c : Views => c) fun c : Views =>
    match find c.made v with
    | some x =>
      .driver (.destroy .views x) <|
      .access .views (fun c : Views => { c with made := erase c.made v }) fun _ =>
      .unlock .views (.ret (x, true))
    | none => .unlock .views (.ret (0, false))
  | .destroySampler h => -- 456-474
    .lock .samplers <|
    .access .samplers (fun c : List Nat => c) fun c : List Nat =>
    if h ∈ c then
      .driver (.destroy .samplers h) <|
      .access .samplers (fun c : List Nat => c.filter (· ≠ h)) fun _ =>
      .unlock .samplers (.ret (h, true))
    else .unlock .samplers (.ret (0, false))
  | .destroyBuffer h => -- 476-511
    .lock .buffers <|
    .access .buffers (fun c : List Nat => c) fun c : List Nat =>
    if h ∈ c then
      .driver (.destroy .buffers h) <|
      .access .buffers (fun c : List Nat => c.filter (· ≠ h)) fun _ =>
      .unlock .buffers (.ret (h, true))
    else .unlock .buffers (.ret (0, false))

/-- A thread: calls to make, the one being made, those made with what they returned. -/
structure Thread where
  todo : List Call := []
  cur : Option (Call × Prog) := none
  done : List (Call × Res) := []

/-- The handler, who has which mutex, the threads, the calls of the driver so far. -/
structure Config where
  mem : Mem
  owner : Mutex → Option Nat
  threads : Nat → Thread
  trace : List Event := []

def setThread (f : Nat → Thread) (t : Nat) (x : Thread) : Nat → Thread := fun u => if u = t then x else f u
def setOwner (f : Mutex → Option Nat) (m : Mutex) (x : Option Nat) : Mutex → Option Nat := fun n => if n = m then x else f n

/-- A step of thread `t`; none: it is finished, or waits for a mutex. -/
def step (c : Config) (t : Nat) : Option Config :=
  let th := c.threads t
  match th.cur with
  | none =>
    match th.todo with
    | [] => none
    | x :: xs => some { c with threads := setThread c.threads t { th with todo := xs, cur := some (x, code x) } }
  | some (x, .ret r) => some { c with threads := setThread c.threads t { th with cur := none, done := th.done ++ [(x, r)] } }
  | some (x, .lock m k) =>
    if c.owner m = none then
      some { c with owner := setOwner c.owner m (some t), threads := setThread c.threads t { th with cur := some (x, k) } }
    else none
  | some (x, .unlock m k) =>
    some { c with owner := setOwner c.owner m none, threads := setThread c.threads t { th with cur := some (x, k) } }
  | some (x, .access m f k) =>
    some { c with mem := setComp c.mem m (f (c.mem m)), threads := setThread c.threads t { th with cur := some (x, k (c.mem m)) } }
  | some (x, .driver e k) =>
    some { c with trace := c.trace ++ [e], threads := setThread c.threads t { th with cur := some (x, k) } }

/-- The steps of a schedule; steps of threads that can't make one are skipped. -/
def runSchedule (c : Config) (ts : List Nat) : Config := ts.foldl (fun c t => (step c t).getD c) c

/-- A new handler: nothing in it. -/
def Mem.init : Mem
  | .views => ({} : Views)
  | .images => ({} : Images)
  | .samplers => ([] : List Nat)
  | .buffers => ([] : List Nat)

/-- Nothing called yet. -/
def Config.init (calls : Nat → List Call) : Config where
  mem := Mem.init
  owner := fun _ => none
  threads := fun t => { todo := calls t }

end Verif.Thr
