import Verif.Model.Queue
/-! What Vulkan asks of submissions, semaphores and destructions; and how a user may chain graphs. -/
namespace Verif.Queue
open Verif.Run (Wait)

/-- The device: submissions of graphs in flight, with the semaphores they refer to (waited for); the user's submissions in
flight, with theirs; fences; semaphores that are signaled or have a signal submitted, not waited for since; what was released. -/
structure Dev where
  pending : Nat → Option (List Nat)
  users : List (List Nat)
  fence : Nat → Bool
  armed : Nat → Bool
  released : List (Nat × Obj)

/-- Fences are created signaled (RunnableGraph.cpp:191-193). -/
def Dev.init : Dev := ⟨fun _ => none, [], fun _ => true, fun _ => false, []⟩

/-- Some submissions in flight finish; graphs' ones signal their fence. -/
def Finishing (d d' : Dev) : Prop :=
  d'.armed = d.armed ∧ d'.released = d.released ∧ (∀ u ∈ d'.users, u ∈ d.users) ∧
  ∀ g, (d'.pending g = d.pending g ∧ d'.fence g = d.fence g) ∨
    (d.pending g ≠ none ∧ d'.pending g = none ∧ d'.fence g = true)

def setAt {α : Type} (f : Nat → α) (g : Nat) (v : α) : Nat → α := fun h => if h = g then v else f h

/-- Semaphores after a submission that waits for `ws` and signals `ss`. -/
def rearm (armed : Nat → Bool) (ws ss : List Nat) : Nat → Bool :=
  fun x => if x ∈ ss then true else if x ∈ ws then false else armed x

def Dev.after (d : Dev) : Call → Dev
  | .base (.waitForever g) => { d with pending := setAt d.pending g none, fence := setAt d.fence g true }
  | .base (.resetFence g) => { d with fence := setAt d.fence g false }
  | .base _ => d
  | .submit g ws s => { d with pending := setAt d.pending g (some ws), armed := rearm d.armed ws [s] }
  | .user ws ss => { d with users := (ws ++ ss) :: d.users, armed := rearm d.armed ws ss }
  | .idle => { d with pending := fun _ => none, users := [], fence := fun g => if d.pending g = none then d.fence g else true }
  | .release g o => { d with released := (g, o) :: d.released }

/-- No object of the graph has been released. -/
def Dev.Alive (d : Dev) (g : Nat) : Prop := ∀ o, (g, o) ∉ d.released

/-- The semaphores of a submission are usable: those waited for are signaled (or have a signal submitted), once each; those
signaled are not signaled already; none belongs to a graph that has been destroyed (VUID-vkQueueSubmit-pWaitSemaphores-03238,
-pSignalSemaphores-00067). -/
def SemaphoresOk (d : Dev) (ws ss : List Nat) : Prop :=
  ws.Nodup ∧ ss.Nodup ∧ (∀ w ∈ ws, d.armed w = true) ∧ (∀ s ∈ ss, s ∈ ws ∨ d.armed s = false) ∧
  ∀ g, semOf g ∈ ws ∨ semOf g ∈ ss → d.Alive g

/-- What Vulkan asks of each call. Fences and command buffers: not reset, submitted or released while in flight; an infinite
wait ends some day. A semaphore isn't destroyed while a submission that refers to it is in flight
(VUID-vkDestroySemaphore-semaphore-05149, VUID-vkDestroyFence-fence-01120, VUID-vkFreeCommandBuffers-pCommandBuffers-00047,
VUID-vkDestroyCommandPool-commandPool-00041). -/
def Ok (d : Dev) : Call → Prop
  | .base (.waitForever g) => d.Alive g ∧ (d.pending g ≠ none ∨ d.fence g = true)
  | .base (.waitFor g) => d.Alive g
  | .base (.resetFence g) => d.Alive g ∧ d.pending g = none
  | .base (.resetCmd g) => d.Alive g ∧ d.pending g = none
  | .base (.submit _ _) => False
  | .base (.destroy _) => True
  | .submit g ws s => d.Alive g ∧ d.pending g = none ∧ d.fence g = false ∧ SemaphoresOk d ws [s]
  | .user ws ss => SemaphoresOk d ws ss
  | .idle => True
  | .release g o =>
    (g, o) ∉ d.released ∧ d.pending g = none ∧ (o = .commandBuffer → (g, .commandPool) ∉ d.released) ∧
    (o = .semaphore → (∀ h ws, d.pending h = some ws → semOf g ∉ ws) ∧ ∀ u ∈ d.users, semOf g ∉ u)

/-- Each call is allowed, whatever the GPU has finished by then. -/
def Safe (d : Dev) : List Call → Prop
  | [] => True
  | c :: cs => ∀ d', Finishing d d' → Ok d' c ∧ Safe (d'.after c) cs

/-! ## How a user may chain and destroy graphs -/

/-- What the user keeps track of: the semaphores that were signaled and not given to anyone; for each graph, the semaphores it
was given when last run, unless it was waited for since; its own submissions; the destroyed graphs. -/
structure Book where
  ready : Nat → Bool := fun _ => false
  flying : Nat → Option (List Nat) := fun _ => none
  users : List (List Nat) := []
  gone : Nat → Bool := fun _ => false

/-- The semaphores given may be given, the ones signaled may be. -/
def Book.Gives (b : Book) (ws ss : List Nat) : Prop :=
  (∀ w ∈ ws, b.ready w = true) ∧ (∀ s ∈ ss, s ∈ ws ∨ b.ready s = false) ∧
  ∀ g, semOf g ∈ ws ∨ semOf g ∈ ss → b.gone g = false

/-- Every semaphore is waited for exactly once between two signals. A graph is destroyed once, after a wait without limit for
it and for every graph that was given its semaphore, and after the user's own submissions are finished. -/
def Tidy (b : Book) : List Op → Prop
  | [] => True
  | .run g toWait :: os =>
    let ws := (toWait.map (·.semaphore)).filter (· ≠ 0)
    b.gone g = false ∧ b.Gives ws [semOf g] ∧
    Tidy { b with ready := rearm b.ready ws [semOf g], flying := setAt b.flying g (some ws) } os
  | .wait g :: os => b.gone g = false ∧ Tidy { b with flying := setAt b.flying g none } os
  | .user ws ss :: os =>
    ws.Nodup ∧ ss.Nodup ∧ b.Gives ws ss ∧ Tidy { b with ready := rearm b.ready ws ss, users := (ws ++ ss) :: b.users } os
  | .idle :: os => Tidy { b with flying := fun _ => none, users := [] } os
  | .destroy g :: os =>
    b.gone g = false ∧ b.flying g = none ∧ (∀ h ws, b.flying h = some ws → semOf g ∉ ws) ∧ (∀ u ∈ b.users, semOf g ∉ u) ∧
    Tidy { b with gone := setAt b.gone g true } os

/-- A frame: an image is acquired, the graphs run one after the other, each waiting for the one before; the image is presented. -/
def chain (first : Nat) (gs : List Nat) : List Op := match gs with
  | [] => [.user [first] []]
  | g :: gs => .run g [⟨first, 1⟩] :: chain (semOf g) gs

def frame (gs : List Nat) : List Op := .user [] [extSem 0] :: chain (extSem 0) gs

/-- So many frames; then the graphs are destroyed, when the device is idle. -/
def session (gs : List Nat) (n : Nat) : List Op :=
  (List.replicate n (frame gs)).flatten ++ .idle :: gs.map .destroy

end Verif.Queue
