import Verif.Model.Sync
/-!
What the device does with the driver calls, and what Vulkan requires of them.

The GPU may finish any submission at any moment: `Safe` asks that each call be allowed whatever has
finished by then.
-/
namespace Verif.Sync

/-- `pending g = some uses`: the submission with the fence of `g` is in flight, and its commands
refer to the objects `uses`.  `signaled g`: the state of the fence.  `destroyed`: the objects that
have been destroyed. -/
structure Dev where
  pending : Nat → Option (List Nat)
  signaled : Nat → Bool
  destroyed : List Nat

/-- Nothing in flight; the fences are created signaled (`VK_FENCE_CREATE_SIGNALED_BIT`,
RunnableGraph.cpp 191-193). -/
def Dev.init : Dev := ⟨fun _ => none, fun _ => true, []⟩

/-- From `d` to `d'` some of the submissions in flight finished, signaling their fence. -/
def Finishing (d d' : Dev) : Prop :=
  d'.destroyed = d.destroyed ∧
  ∀ g, (d'.pending g = d.pending g ∧ d'.signaled g = d.signaled g) ∨
    (d.pending g ≠ none ∧ d'.pending g = none ∧ d'.signaled g = true)

/-- The effect of a call.  An infinite wait returns once the fence is signaled, a finite one may
return before. -/
def Dev.after (d : Dev) : Call → Dev
  | .waitForever g =>
    { d with pending := fun h => if h = g then none else d.pending h
             signaled := fun h => if h = g then true else d.signaled h }
  | .waitFor _ => d
  | .resetFence g => { d with signaled := fun h => if h = g then false else d.signaled h }
  | .resetCmd _ => d
  | .submit g uses => { d with pending := fun h => if h = g then some uses else d.pending h }
  | .destroy x => { d with destroyed := x :: d.destroyed }

/-- What Vulkan asks about fences and command buffers (VUID-vkResetFences-pFences-01123,
VUID-vkResetCommandBuffer-commandBuffer-00045, VUID-vkQueueSubmit-fence-00063/00064,
VUID-vkQueueSubmit-pCommandBuffers-00071), and that an infinite wait ends some day. -/
def FenceOk (d : Dev) : Call → Prop
  | .waitForever g => d.pending g ≠ none ∨ d.signaled g = true
  | .waitFor _ => True
  | .resetFence g => d.pending g = none
  | .resetCmd g => d.pending g = none
  | .submit g _ => d.pending g = none ∧ d.signaled g = false
  | .destroy _ => True

/-- What Vulkan asks about objects: destroyed once, not while a submission that uses them is in
flight, and not used by a later submission. -/
def DestroyOk (d : Dev) : Call → Prop
  | .destroy x => x ∉ d.destroyed ∧ ∀ g uses, d.pending g = some uses → x ∉ uses
  | .submit _ uses => ∀ x ∈ uses, x ∉ d.destroyed
  | _ => True

/-- Each call is allowed, whatever the GPU has finished by then. -/
def Safe (ok : Dev → Call → Prop) (d : Dev) : List Call → Prop
  | [] => True
  | c :: cs => ∀ d', Finishing d d' → ok d' c ∧ Safe ok (d'.after c) cs

/-! ## How a user may drive the fence -/

/-- What the user has to remember of a fence: it was reset and not submitted since; a finite wait
was made since the last infinite one. -/
structure Prot where
  needSubmit : Bool := false
  timed : Bool := false

def setAt {α : Type} (f : Nat → α) (g : Nat) (v : α) : Nat → α := fun h => if h = g then v else f h

/-- The user resets a fence only if no finite wait was made since the last infinite one, submits
only with a fence just reset, and between the reset and the submission neither waits without limit
nor resets, records or runs.  `run`, `record` and waits need nothing else. -/
def Disciplined (p : Nat → Prot) : List Op → Prop
  | [] => True
  | .wait g :: os => (p g).needSubmit = false ∧ Disciplined (setAt p g {}) os
  | .waitFor g :: os => Disciplined (setAt p g { p g with timed := true }) os
  | .reset g :: os =>
    (p g).needSubmit = false ∧ (p g).timed = false ∧
      Disciplined (setAt p g { needSubmit := true }) os
  | .submit g _ :: os =>
    (p g).needSubmit = true ∧ Disciplined (setAt p g { p g with needSubmit := false }) os
  | .push _ :: os => Disciplined p os
  | .record g _ :: os => (p g).needSubmit = false ∧ Disciplined (setAt p g {}) os
  | .run g _ _ :: os => (p g).needSubmit = false ∧ Disciplined (setAt p g {}) os

/-- The user only runs, records, waits and schedules destructions: nothing is done to the fences
directly. -/
def Plain : Op → Prop
  | .reset _ => False
  | .submit _ _ => False
  | _ => True

/-! ## How a user may schedule destructions -/

/-- The destructions a program schedules, in order. -/
def pushes : List Op → List Nat
  | [] => []
  | .push x :: os => x :: pushes os
  | .record _ xs :: os => xs ++ pushes os
  | .run _ _ xs :: os => xs ++ pushes os
  | _ :: os => pushes os

/-- The destructions executed by driver calls, in order. -/
def destroys (cs : List Call) : List Nat :=
  cs.filterMap fun | .destroy x => some x | _ => none

/-- Once the destruction of an object has been scheduled, no submission uses it; not even the one
being recorded. -/
def NotUsedAfter (gone : List Nat) : List Op → Prop
  | [] => True
  | .push x :: os => NotUsedAfter (gone ++ [x]) os
  | .record _ xs :: os => NotUsedAfter (gone ++ xs) os
  | .run _ uses xs :: os => (∀ x ∈ uses, x ∉ gone ++ xs) ∧ NotUsedAfter (gone ++ xs) os
  | .submit _ uses :: os => (∀ x ∈ uses, x ∉ gone) ∧ NotUsedAfter gone os
  | _ :: os => NotUsedAfter gone os

/-- When a graph is run, every other graph run before has been waited for (with no limit) since.
`busy`: the graphs submitted and not waited for. -/
def OneAtATime (busy : List Nat) : List Op → Prop
  | [] => True
  | .wait g :: os => OneAtATime (busy.filter (· != g)) os
  | .record g _ :: os => OneAtATime (busy.filter (· != g)) os
  | .submit g _ :: os => OneAtATime (g :: busy) os
  | .run g _ _ :: os => (∀ h ∈ busy, h = g) ∧ OneAtATime [g] os
  | _ :: os => OneAtATime busy os

end Verif.Sync
