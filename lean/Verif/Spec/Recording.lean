import Verif.Spec.Gpu
/-
Histories of calls on one recording context, for C15, C17, C45, C46.
-/
namespace Verif.Gpu
open Verif.Rec

/-- A buffer barrier request: arguments of `memoryBarrier( commandBuffer, buffer, range, initialMask,
initialStage, wantedState, force )`. -/
structure BufRequest where
  buffer : Nat
  offset : Nat
  size : Nat
  initial : AccessState
  wanted : AccessState
  force : Bool
deriving DecidableEq, Repr

def bufRequest (r : Rec) (q : BufRequest) : Rec :=
  r.bufferBarrier q.buffer q.offset q.size q.initial q.wanted q.force

def bufRequests (r : Rec) (qs : List BufRequest) : Rec := qs.foldl bufRequest r

/-- A call on the context. -/
inductive Call where
  /-- `memoryBarrier( commandBuffer, view, initialLayout, wantedState, force )` -/
  | barrier (v : View) (initial : Nat) (wanted : LayoutState) (force : Bool)
  /-- `memoryBarrier( commandBuffer, buffer, … )` -/
  | buffer (q : BufRequest)
  /-- `registerImplicitTransition( pass, view, action )` -/
  | register (t : Implicit)
  /-- `runImplicitTransition( commandBuffer, index, view )` when the passes enabled are those given -/
  | use (v : View) (enabled : Nat → Bool)
  /-- a command the caller records itself (a draw, a dispatch, …), which changes no image layout -/
  | work (k : Nat)

/-- Perform a call. -/
def perform (sepDS : Bool) (r : Rec) : Call → Rec
  | .barrier v i w f => r.viewBarrier ⟨sepDS, fun _ => true⟩ v i w f
  | .buffer q => bufRequest r q
  | .register t => r.register t
  | .use v en => r.runImplicit ⟨sepDS, en⟩ v
  | .work k => r.emit (.work k)

/-- Perform calls one after the other. -/
def performAll (sepDS : Bool) (r : Rec) (cs : List Call) : Rec := cs.foldl (perform sepDS) r

/-- Two views share no subresource. -/
def View.Apart (v w : View) : Prop := v.image.id ≠ w.image.id ∨ v.range.Disjoint w.range

/-- Two views are of the same subresources. -/
def View.Same (v w : View) : Prop := v.image.id = w.image.id ∧ ∀ l m, v.range.Has l m ↔ w.range.Has l m

/-- A family of views used in ordinary ways: none is a 3D view, each names all aspects of its image, and any two
are apart or of the same subresources. -/
structure Tidy (sepDS : Bool) (fmt : Nat → Nat) (V : View → Prop) : Prop where
  format : ∀ v, V v → v.image.format = fmt v.image.id
  view : ∀ v, V v → v.viewType ≠ .d3
  aspect : ∀ v, V v → WholeAspect sepDS v.image.format v.range.aspect
  apart : ∀ v w, V v → V w → View.Apart v w ∨ View.Same v w

/-- The action only touches views of the family, and its source and destination are apart. -/
def ActionIn (V : View → Prop) : Action → Prop
  | .nothing => True
  | .user _ => True
  | .copy s d _ _ _ => V s ∧ V d ∧ View.Apart s d ∧ d.range.NonEmpty ∧ s.range.NonEmpty
  | .blit s d _ _ _ _ _ _ _ _ _ _ => V s ∧ V d ∧ View.Apart s d ∧ d.range.NonEmpty ∧ s.range.NonEmpty
  | .clear d _ _ => V d

/-- The call only touches views of the family and doesn't lie about initial layouts. -/
def CallIn (V : View → Prop) (g0 : Layouts) : Call → Prop
  | .barrier v i w _ => V v ∧ w.layout ≠ Layout.undefined
      ∧ (i = Layout.undefined ∨ ∀ a l m, v.range.Has l m → g0 v.image.id a l m = i)
  | .buffer _ => True
  | .register t => ActionIn V t.action
  | .use _ _ | .work _ => True

/-- Times user function `k` was run, from the commands it recorded. -/
def ranTimes (k : Nat) (cs : List Cmd) : Nat := cs.countP (· == .user k)

/-- Times user function `k` is awaiting. -/
def pendingTimes (k : Nat) (ts : List Implicit) : Nat := ts.countP (·.action == .user k)

/-- Times user function `k` was registered in the history. -/
def registeredTimes (k : Nat) (cs : List Call) : Nat :=
  cs.countP fun | .register t => t.action == .user k | _ => false

end Verif.Gpu
