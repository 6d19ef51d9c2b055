import Verif.Model.Indent
/- What programs do with their streams, and what each stream holds if nobody else is there. -/
namespace Verif.Ind
open Verif.Dot (Stream)

/-- The thread has the streams of `mine`: it uses no other, and none before it is constructed or after it is destroyed. -/
def Uses : (Nat → Bool) → List Op → Prop
  | _, [] => True
  | mine, .create a :: r => mine a = false ∧ Uses (upd mine a true) r
  | mine, .indent a _ :: r => mine a = true ∧ Uses mine r
  | mine, .put a _ :: r => mine a = true ∧ Uses mine r
  | mine, .destroy a :: r => mine a = true ∧ Uses (upd mine a false) r

/-- Every thread uses its own streams only. -/
def OwnStreams (prog : Nat → List Op) : Prop := ∀ t, Uses (fun _ => false) (prog t)

/-- The texts of the streams a thread destroys, in order, when every stream has its indentation in itself and there is no table
(`Stream` of Model/DotText.lean). -/
def alone : (Nat → Stream) → List Op → List (List Char)
  | _, [] => []
  | s, .create a :: r => alone (upd s a {}) r
  | s, .indent a i :: r => alone (upd s a ((s a).indent i)) r
  | s, .put a text :: r => alone (upd s a ((s a).put text)) r
  | s, .destroy a :: r => (s a).text :: alone s r

/-- Nobody has anything left to do. -/
def Ended (w : World) : Prop := ∀ t, w.pc t = .idle ∧ w.rest t = []

/-- Which streams a program leaves behind. -/
def left : (Nat → Bool) → List Op → Nat → Bool
  | mine, [] => mine
  | mine, .create a :: r => left (upd mine a true) r
  | mine, .indent _ _ :: r => left mine r
  | mine, .put _ _ :: r => left mine r
  | mine, .destroy a :: r => left (upd mine a false) r

/-- Every stream that a program constructs it destroys. -/
def Cleans (prog : Nat → List Op) : Prop := ∀ t a, left (fun _ => false) (prog t) a = false

end Verif.Ind
