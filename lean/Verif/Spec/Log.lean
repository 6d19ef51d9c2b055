import Verif.Model.Log
/-
C103: what a user of the logger may rely on.
-/
namespace Verif.Logger

/-- The call of a callback of level `l` is in progress in thread `t`. -/
def Calling (s : St) (t : Nat) (l : Level) : Prop := .ret l ∈ s.rest t

/-- The callback of level `l` is being replaced by thread `t`. -/
def Replacing (s : St) (t : Nat) (l : Level) : Prop := .assigned l ∈ s.rest t

/-- A `std::function` is called, or replaced, while it is replaced. -/
def Race (s : St) : Prop :=
  ∃ t l, Replacing s t l ∧ ((∃ t', t' ≠ t ∧ (Replacing s t' l ∨ Calling s t' l)) ∨ Calling s t l)

/-- What one thread alone observes: each message goes to the callback set last for its level; what the callback does comes before
the next operation. -/
inductive Delivered (body : Body) : (Level → Nat) → List Op → List Event → Prop where
  | nil (E : Level → Nat) : Delivered body E [] []
  | log {E : Level → Nat} {l : Level} {m : Msg} {os : List Op} {evs : List Event} :
      Delivered body E (body (E l) m ++ os) evs → Delivered body E (.log l m :: os) (.called l (E l) m :: evs)
  | set {E : Level → Nat} {l : Level} {c : Nat} {os : List Op} {evs : List Event} :
      Delivered body (fun k => if k = l then c else E k) os evs → Delivered body E (.set l c :: os) evs
  | put {E : Level → Nat} {st : Stream} {text : String} {os : List Op} {evs : List Event} :
      Delivered body E os evs → Delivered body E (.put st text :: os) (.wrote st text :: evs)

/-- The discipline: the callback of a level is only changed by one thread, which then is the only one to use the level; callbacks
change no callback, and log to levels whose callback nobody changes. -/
structure Disciplined (body : Body) (progs : Nat → List Op) (owner : Level → Option Nat) : Prop where
  sets : ∀ t l c, Op.set l c ∈ progs t → owner l = some t
  logs : ∀ t l m, Op.log l m ∈ progs t → owner l = none ∨ owner l = some t
  nested : ∀ c m l m', Op.log l m' ∈ body c m → owner l = none
  noSets : ∀ c m l c', Op.set l c' ∉ body c m

/-- The events of a thread. -/
def eventsOf (t : Nat) (out : List (Nat × Event)) : List Event := (out.filter (·.1 = t)).map (·.2)

/-- The text a stream received. -/
def textOf (st : Stream) (out : List (Nat × Event)) : String :=
  String.join (out.filterMap fun e => match e.2 with | .wrote st' text => if st' = st then some text else none | _ => none)

/-- The stream of the default callback of a level. -/
def Level.stream : Level → Stream
  | .trace | .debug => .clog
  | .info | .warning => .cout
  | .error => .cerr

/-- The text of messages: each followed by a line end if it asked for one. -/
def textAt (st : Stream) (ms : List (Level × Msg)) : String :=
  String.join ((ms.filter (·.1.stream = st)).map fun m => m.2.text ++ if m.2.newLine then "\n" else "")

end Verif.Logger
