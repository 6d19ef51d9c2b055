import Verif.Model.Signal
/-
What a user expects of connections, independent of slots and numbers.
-/
namespace Verif.Sig

/-- The connected variables and the function each is for. -/
abbrev Live := List (Nat × Nat)

/-- Assigning a connection to a variable ends the one it had; disconnecting ends that one only; moving gives the
connection to another variable. -/
def Live.apply (l : Live) : Op → Live
  | .connect a f => l.filter (fun e => e.1 != a) ++ [(a, f)]
  | .disconnect a => l.filter (fun e => e.1 != a)
  | .move a b => if a = b then l else (l.filter (fun e => e.1 != a)).map fun e => if e.1 = b then (a, e.2) else e

/-- What is connected at each emission of a program. -/
def expected : Live → List Step → List Live
  | _, [] => []
  | l, .op o :: t => expected (l.apply o) t
  | l, .emit :: t => l :: expected l t

/-- The number given to a new connection, one more than the number of connections, is never that of a connection that is
still there. -/
def FreshNumbers : State → List Step → Prop
  | _, [] => True
  | s, .op o :: t =>
    (match o with
     | .connect _ _ => lookup s.slots (nextIndex s) = none ∧ nextIndex s ≠ 0
     | _ => True) ∧ FreshNumbers (apply s o) t
  | s, .emit :: t => FreshNumbers s t

/-- The functions called are those connected, each once. -/
def CallsEach (o : Outcome) (l : Live) : Prop := ∃ calls s, o = .done calls s ∧ calls.Perm (l.map (·.2))

end Verif.Sig
