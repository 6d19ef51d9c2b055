import Verif.Model.Context
/-!
What a user expects of memory types, of the report of live objects and of compute dispatches.
-/
namespace Verif.Ctx

/-- Memory type `i` exists, is allowed by the mask and has all the required properties. -/
def Suitable (types : List Nat) (mask requirements i : Nat) : Prop :=
  ∃ flags, types[i]? = some flags ∧ mask.testBit i = true ∧
    ∀ b, requirements.testBit b = true → flags.testBit b = true

/-- The objects (value, type) registered and not yet unregistered, with their name. -/
def live (l : List ((Nat × Nat) × Nat)) : Op → List ((Nat × Nat) × Nat)
  | .register v t n => l.filter (fun e => e.1 != (v, t)) ++ [((v, t), n)]
  | .unregister v t => l.filter (fun e => e.1 != (v, t))

/-- What the register holds, as objects. -/
def Registry.objects (m : Registry) : List ((Nat × Nat) × Nat) := m.map fun e => ((e.1, e.2.1), e.2.2)

/-- No null handle; no handle has the value of a live object of another type; only registered
objects are unregistered (or objects whose value is not in use). -/
def Distinct (l : List ((Nat × Nat) × Nat)) : List Op → Prop
  | [] => True
  | o :: os =>
    (match o with
     | .register v t _ => v ≠ 0 ∧ ∀ e ∈ l, e.1.1 = v → e.1.2 = t
     | .unregister v t => ∀ e ∈ l, e.1.1 = v → e.1.2 = t) ∧
    Distinct (live l o) os

/-- The value configured for a component: the callback's if there is one, else the constant, else
1. -/
def configured (callback constant : Option Nat) : Nat := callback.getD (constant.getD 1)

end Verif.Ctx
