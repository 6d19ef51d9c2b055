import Verif.Model.Times
/-
What the times reported by timers should be.
-/
namespace Verif.Times

/-- What is known of rounding to a `float` (IEEE single precision, to nearest, ties to even): monotone, exact for naturals up
to 2^24, and 2^24 + 1 becomes 2^24. -/
structure Single (fl : ℚ → ℚ) : Prop where
  mono : ∀ x y, x ≤ y → fl x ≤ fl y
  exact : ∀ n : Nat, n ≤ 2 ^ 24 → fl n = n
  tie : fl (2 ^ 24 + 1) = 2 ^ 24

/-- The timer of the first `retrieveGpuTime` of a history. -/
def firstRetriever (cs : List Call) : Option Nat :=
  cs.findSome? fun | .retrieve i _ _ => some i | _ => none

/-- Time spent in the blocks of timer `i`, and in its `retrieveGpuTime`, in a history where its blocks don't overlap. -/
inductive Spent (i : Nat) : List Call → Nat → Prop
  | nil : Spent i [] 0
  | block (a b : Nat) (inner rest : List Call) (n : Nat) (hi : ∀ c ∈ inner, c.timer = i → ∀ j x y, c ≠ .retrieve j x y
        ∧ c ≠ .start j x ∧ c ≠ .stop j x ∧ c ≠ .reset j) (h : Spent i rest n) :
      Spent i (.start i a :: (inner ++ .stop i b :: rest)) ((b - a) + n)
  | retrieve (a b : Nat) (rest : List Call) (n : Nat) (h : Spent i rest n) : Spent i (.retrieve i a b :: rest) ((b - a) + n)
  | other (c : Call) (rest : List Call) (n : Nat) (hc : c.timer = i → ∀ j x y, c ≠ .retrieve j x y ∧ c ≠ .start j x
        ∧ c ≠ .stop j x ∧ c ≠ .reset j) (h : Spent i rest n) : Spent i (c :: rest) n

/-- A program of blocks: names are new, what is moved or destroyed exists, and everything is destroyed in the end. -/
def Proper : List Nat → List BlockOp → Prop
  | alive, [] => alive = []
  | alive, .start b _ _ :: os => b ∉ alive ∧ Proper (b :: alive) os
  | alive, .move a b :: os => a ∈ alive ∧ b ∉ alive ∧ Proper (b :: alive) os
  | alive, .destroy b _ :: os => b ∈ alive ∧ Proper (alive.filter fun x => x != b) os

/-- Starts of timer `i`. -/
def starts (i : Nat) (cs : List Call) : Nat := cs.countP fun | .start j _ => j == i | _ => false

/-- Stops of timer `i`. -/
def stops (i : Nat) (cs : List Call) : Nat := cs.countP fun | .stop j _ => j == i | _ => false

end Verif.Times
