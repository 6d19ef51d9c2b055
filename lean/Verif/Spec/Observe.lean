import Verif.Model.RunnableGraph
/-
What can be observed of a recording from outside: which bodies are called, in which order, and with which recording.
-/
namespace Verif.Run
open Verif.Rec Verif.Att

/-- The graph with the body of its `k`-th pass replaced. -/
def withBody : List RunPass → Nat → (Nat → Rec → Rec) → List RunPass
  | [], _, _ => []
  | p :: ps, 0, b => { p with body := b } :: ps
  | p :: ps, k + 1, b => p :: withBody ps k b

/-- `RunnableGraph::record` calls the body of pass `q`, the `k`-th, with the recording `r`: whatever that body does,
the outcome depends on it only through what it does with `r`. -/
def BodyGets (env : Env) (G : GraphSt) (deps : List Ctx) (index : Nat → Nat) (passes : List RunPass)
    (ini : Nat → Nat → Bool) (log : List Event) (k : Nat) (q : RunPass) (r : Rec) : Prop :=
  passes[k]? = some q ∧ ∀ b b' : Nat → Rec → Rec, b (index q.id) r = b' (index q.id) r →
    record env G deps index (withBody passes k b) ini log = record env G deps index (withBody passes k b') ini log

/-- The body calls of a log, in order. -/
def runs (log : List Event) : List (Nat × Nat) :=
  log.filterMap fun | .run p i => some (p, i) | .init _ _ => none

end Verif.Run
