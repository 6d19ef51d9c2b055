/-
Model of signals and their connections.
Modelled code: /repo/include/RenderGraph/Signal.hpp: `SignalConnection` 21-120, `Signal` 126-284.
Simplifications: one signal; calls don't overlap. A connection variable is named by a number (its address). Functions are
named by numbers. A slot erased and put back under the same number while it is being called counts as still there.
-/
namespace Verif.Sig

/-- `m_slots` (a `std::map`, ordered by slot number), and the connection variables bound to the signal with their slot
number (`m_connections`, and the fields of the variables it points to). -/
structure State where
  slots : List (Nat × Nat) := []
  conns : List (Nat × Nat) := []
deriving DecidableEq, Repr

/-- `std::map::find`. -/
def lookup (m : List (Nat × Nat)) (k : Nat) : Option Nat := (m.find? fun e => e.1 == k).map (·.2)

/-- `std::map::emplace`: nothing happens if the key is there. -/
def emplace : List (Nat × Nat) → Nat → Nat → List (Nat × Nat)
  | [], k, f => [(k, f)]
  | e :: m, k, f => if k < e.1 then (k, f) :: e :: m else if k = e.1 then e :: m else e :: emplace m k f

/-- `std::map::erase`. -/
def erase (m : List (Nat × Nat)) (k : Nat) : List (Nat × Nat) := m.filter fun e => e.1 != k

/-- What a program does with connection variables. -/
inductive Op where
  /-- `a = signal.connect( f );` -/
  | connect (a f : Nat)
  /-- `a.disconnect();` or the end of life of `a`. -/
  | disconnect (a : Nat)
  /-- `a = std::move( b );` -/
  | move (a b : Nat)
deriving DecidableEq, Repr

/-- `SignalConnection::disconnect`, 73-82: `m_signal && m_connection`, then `Signal::disconnect`, 219-227. -/
def disconnect (s : State) (a : Nat) : State :=
  match lookup s.conns a with
  | none => s
  | some k => if k = 0 then s else { slots := erase s.slots k, conns := erase s.conns a }

/-- `Signal::connect`, 167-172: the slot number. -/
def nextIndex (s : State) : Nat := (s.slots.length + 1) % 2 ^ 32

/-- One operation. Assignments, 59-64: `tmp` takes the right-hand side (by `swap`, 90-113), is swapped with the variable,
and disconnects what this had when it dies. -/
def apply (s : State) : Op → State
  | .connect a f =>
    let k := nextIndex s
    let s1 : State := { s with slots := emplace s.slots k f }
    match lookup s.conns a with
    | none => { s1 with conns := s1.conns ++ [(a, k)] }
    | some old =>
      { slots := if old = 0 then s1.slots else erase s1.slots old, conns := erase s1.conns a ++ [(a, k)] }
  | .disconnect a => disconnect s a
  | .move a b =>
    if a = b then s
    else
      let s1 := disconnect s a
      match lookup s.conns b with
      | none => s1
      | some k => { s1 with conns := erase s1.conns b ++ [(a, k)] }

/-- The result of an emission: the functions called, in order; undefined behaviour; or still running. -/
inductive Outcome where
  | done (calls : List Nat) (s : State)
  | undefined
  | running
deriving DecidableEq, Repr

/-- The loop of `Signal::operator()`, 194-206, with `adjustSlots`, 260-277, for at most the given number of calls. `beh`
gives what each function does to the signal when called (it may depend on what is connected). `k` is the key of the iterator. -/
def emitLoop (beh : Nat → State → List Op) : Nat → State → Nat → Nat → Nat → List Nat → Outcome
  | 0, _, _, _, _, _ => .running
  | n + 1, s, k, size, index, calls =>
    match lookup s.slots k with
    | none => .undefined
    | some f =>
      let s' := (beh f s).foldl apply s
      if size ≠ s'.slots.length then
        if s'.slots.length < index then .undefined
        else
          match s'.slots[index]? with
          | none => .done (calls ++ [f]) s'
          | some e => emitLoop beh n s' e.1 s'.slots.length index (calls ++ [f])
      else
        match lookup s'.slots k with
        | none => .undefined
        | some _ =>
          match s'.slots.find? (fun e => k < e.1) with
          | none => .done (calls ++ [f]) s'
          | some e => emitLoop beh n s' e.1 size (index + 1) (calls ++ [f])

/-- `Signal::operator()`. -/
def emit (beh : Nat → State → List Op) (n : Nat) (s : State) : Outcome :=
  match s.slots with
  | [] => .done [] s
  | e :: _ => emitLoop beh n s e.1 s.slots.length 0 []

/-- `Signal::~Signal`, 146-159: every connection is disconnected. -/
def destroySignal (s : State) : State := (s.conns.map (·.1)).foldl disconnect s

/-- `SignalConnection::isValid`, 84-87. -/
def isValid (s : State) (a : Nat) : Bool :=
  match lookup s.conns a with
  | some k => k != 0
  | none => false

/-- A step of a program: an operation, or an emission during which no function touches the signal. -/
inductive Step where
  | op (o : Op)
  | emit
deriving DecidableEq, Repr

/-- The outcomes of the emissions of a program. -/
def run : State → List Step → List Outcome
  | _, [] => []
  | s, .op o :: t => run (apply s o) t
  | s, .emit :: t => emit (fun _ _ => []) (s.slots.length + 1) s :: run s t

end Verif.Sig
