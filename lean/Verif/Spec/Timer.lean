import Verif.Model.Timer
/-!
What queries a call concerns, when a timer may read, and when the results of queries can be read.
-/
namespace Verif.Timer

/-- The queries an action concerns. -/
def Act.queries : Act → List Nat
  | .reset o => [o, o + 1]
  | .write q => [q]
  | .read o => [o, o + 1]

/-- The pair of queries in use after the calls `h` on a timer made at `base`: the two pairs take
turns at each `beginPass`. -/
def current (base : Nat) (h : List Op) : Nat := base + 2 * (h.count .beginPass % 2)

/-- What `retrieveGpuTime` reads if called after the calls `h`. -/
def readAfter (base : Nat) (h : List Op) : List Act :=
  (step (exec (make base).1 h).1 .retrieve).2

/-- In `h`, `op` was called while the pair `o` was in use, and the pair was not read since. -/
def Since (base : Nat) (h : List Op) (o : Nat) (op : Op) : Prop :=
  ∃ a b, h = a ++ op :: b ∧ current base a = o ∧
    ∀ b1 b2, b = b1 ++ .retrieve :: b2 → readAfter base (a ++ op :: b1) ≠ [.read o]

/-! ## The device -/

/-- `buffer`: recorded in the graph's command buffer. `ready q`: the last command executed or
submitted that concerns query `q` writes it. -/
structure Dev where
  buffer : List Act := []
  ready : Nat → Bool := fun _ => false

/-- A recorded action is executed. -/
def execAct (ready : Nat → Bool) : Act → Nat → Bool
  | .reset o => fun q => if q = o ∨ q = o + 1 then false else ready q
  | .write k => fun q => if q = k then true else ready q
  | .read _ => ready

def Dev.after (d : Dev) : Event → Dev
  | .begin => { d with buffer := [] }
  | .cmd a => { d with buffer := d.buffer ++ [a] }
  | .other _ => d
  | .submit => { d with ready := d.buffer.foldl execAct d.ready }
  | .call _ => d

/-- Results are only waited for if the queries are written by submitted commands: otherwise the
call never returns. -/
def Dev.Allows (d : Dev) : Event → Prop
  | .call (.read o) => d.ready o = true ∧ d.ready (o + 1) = true
  | _ => True

def Valid (d : Dev) : List Event → Prop
  | [] => True
  | e :: es => d.Allows e ∧ Valid (d.after e) es

/-- `isEnabled()` doesn't change while the graph runs. -/
def Stable : Use → Prop
  | .run e e' => e = e'
  | _ => True

end Verif.Timer
