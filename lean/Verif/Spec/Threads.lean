import Verif.Model.Threads
/-! What calls of a handler do one after the other; what is required of those of several threads. -/
namespace Verif.Thr

open Res (ViewData find erase)

/-- The containers. -/
structure Seq where
  ids : Verif.Res.Ids := {}
  images : List (Nat × Nat) := []
  views : List (Nat × Nat) := []
  samplers : List Nat := []
  buffers : List Nat := []

/-- An image: the one there is, or a new one. -/
def Seq.image (s : Seq) (i h : Nat) : Res × Seq :=
  match find s.images i with
  | some x => ((x, false), s)
  | none => ((h, true), { s with images := s.images ++ [(i, h)] })

/-- A call from beginning to end. Ids are given as `Model/Resources.lean` says. -/
def Seq.call (s : Seq) : Call → Res × Seq
  | .imageId d => (((Res.createImageId s.ids d).1, true), { s with ids := (Res.createImageId s.ids d).2 })
  | .viewId v =>
    (((Res.createViewId s.ids v).1, (s.ids.views.find? fun e => e.2.desc == v.desc).isNone),
      { s with ids := (Res.createViewId s.ids v).2 })
  | .createImage i h => s.image i h
  | .createView v i h h' =>
    match find s.views v with
    | some x => ((x, false), s)
    | none => ((h', true), { (s.image i h).2 with views := s.views ++ [(v, h')] })
  | .createSampler h => ((h, true), { s with samplers := if h ∈ s.samplers then s.samplers else s.samplers ++ [h] })
  | .createBuffer h => ((h, true), { s with buffers := if h ∈ s.buffers then s.buffers else s.buffers ++ [h] })
  | .destroyImage i =>
    match find s.images i with
    | some x => ((x, true), { s with images := erase s.images i })
    | none => ((0, false), s)
  | .destroyView v =>
    match find s.views v with
    | some x => ((x, true), { s with views := erase s.views v })
    | none => ((0, false), s)
  | .destroySampler h => if h ∈ s.samplers then ((h, true), { s with samplers := s.samplers.filter (· ≠ h) }) else ((0, false), s)
  | .destroyBuffer h => if h ∈ s.buffers then ((h, true), { s with buffers := s.buffers.filter (· ≠ h) }) else ((0, false), s)

/-- The kind of the object a call of the driver is about. -/
def Event.kind : Event → Mutex
  | .create m _ _ => m
  | .destroy m _ => m

/-- The driver makes an image, if there is none. -/
def Seq.imageEvents (s : Seq) (i h : Nat) : List Event :=
  match find s.images i with
  | some _ => []
  | none => [.create .images h none]

/-- What the driver is asked for during a call. -/
def Seq.events (s : Seq) : Call → List Event
  | .imageId _ => []
  | .viewId _ => []
  | .createImage i h => s.imageEvents i h
  | .createView v i h h' =>
    match find s.views v with
    | some _ => []
    | none => s.imageEvents i h ++ [.create .views h' (some (s.image i h).1.1)]
  | .createSampler h => [.create .samplers h none]
  | .createBuffer h => [.create .buffers h none]
  | .destroyImage i =>
    match find s.images i with
    | some x => [.destroy .images x]
    | none => []
  | .destroyView v =>
    match find s.views v with
    | some x => [.destroy .views x]
    | none => []
  | .destroySampler h => if h ∈ s.samplers then [.destroy .samplers h] else []
  | .destroyBuffer h => if h ∈ s.buffers then [.destroy .buffers h] else []

/-- What the driver is asked for by calls one after the other. -/
def eventsOf : Seq → List (Nat × Call × Res) → List Event
  | _, [] => []
  | s, (_, x, _) :: o => s.events x ++ eventsOf (s.call x).2 o

/-- What the driver was asked for about a kind. -/
def ofKind (m : Mutex) (l : List Event) : List Event := l.filter (·.kind = m)

/-- The calls of `order` (thread, call, what it returned), one after the other, return what they say and lead to `s'`. -/
def Explains : Seq → List (Nat × Call × Res) → Seq → Prop
  | s, [], s' => s = s'
  | s, (_, x, r) :: o, s' => (s.call x).1 = r ∧ Explains (s.call x).2 o s'

/-- The calls of a thread. -/
def ofThread (t : Nat) (o : List (Nat × Call × Res)) : List (Call × Res) := (o.filter (·.1 = t)).map (·.2)

/-- The containers of the handler. -/
def seqOf (M : Mem) : Seq where
  ids := ⟨Images.ids (M .images), Views.ids (M .views)⟩
  images := Images.made (M .images)
  views := Views.made (M .views)
  samplers := M .samplers
  buffers := M .buffers

/-- `order` explains the state: it has the calls finished by each thread, in their order, and maybe the call a thread is making. When
no thread is making a call, the containers are those it leads to. While nobody has the mutex of a kind, the driver was asked for objects of
that kind as by these calls, in the same order. -/
structure Linearizes (c : Config) (o : List (Nat × Call × Res)) : Prop where
  explains : ∃ s, Explains {} o s ∧ ((∀ t, (c.threads t).cur = none) → s = seqOf c.mem)
  driver : ∀ m, c.owner m = none → ofKind m c.trace = ofKind m (eventsOf {} o)
  idle : ∀ t, (c.threads t).cur = none → ofThread t o = (c.threads t).done
  busy : ∀ t x p, (c.threads t).cur = some (x, p) → ofThread t o = (c.threads t).done ∨ ∃ r, ofThread t o = (c.threads t).done ++ [(x, r)]

/-- How often the driver made an object of a kind with a handle. -/
def created (m : Mutex) (h : Nat) (l : List Event) : Nat := l.countP fun e => match e with | .create k x _ => k = m ∧ x = h | .destroy _ _ => false

/-- How often it destroyed it. -/
def destroyed (m : Mutex) (h : Nat) (l : List Event) : Nat := l.countP fun e => match e with | .destroy k x => k = m ∧ x = h | .create _ _ _ => false

/-- The handles the handler has. -/
def Seq.handles (s : Seq) : Mutex → List Nat
  | .views => s.views.map (·.2)
  | .images => s.images.map (·.2)
  | .samplers => s.samplers
  | .buffers => s.buffers

/-- The driver gives a new object a handle that no existing object of its kind has. -/
def FreshHandles (l : List Event) : Prop := ∀ a b m h i, l = a ++ .create m h i :: b → created m h a = destroyed m h a

/-- Two threads are about to access the same container. -/
def Race (c : Config) : Prop :=
  ∃ t u m, t ≠ u ∧ (∃ x f k, (c.threads t).cur = some (x, .access m f k)) ∧ ∃ x f k, (c.threads u).cur = some (x, .access m f k)

/-- A thread has nothing left to do. -/
def Finished (th : Thread) : Prop := th.cur = none ∧ th.todo = []

/-- The steps of a schedule, none skipped. -/
def steps : Config → List Nat → Option Config
  | c, [] => some c
  | c, t :: ts => (step c t).bind fun c' => steps c' ts

/-- The number of calls of the first `n` threads. -/
def total (calls : Nat → List Call) (n : Nat) : Nat := ((List.range n).map fun t => (calls t).length).sum

end Verif.Thr
