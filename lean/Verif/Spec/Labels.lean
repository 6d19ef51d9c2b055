import Verif.Model.Labels
import Verif.Spec.Bracket
/-
What a command buffer with timestamps and debug blocks must be like. Vulkan: `vkCmdEndDebugUtilsLabelEXT` needs a block begun
before (VUID-vkCmdEndDebugUtilsLabelEXT-commandBuffer-01912); queries are reset outside of render pass instances and must
be reset before they are written (VUID-vkCmdWriteTimestamp-None-00830).
-/
namespace Verif.Lab
open Verif.Rec Verif.Run Verif.Timer

/-- While going through a command buffer: the blocks open (innermost first), whether a render pass instance is open, which
queries were reset and not written since. -/
structure Scan where
  blocks : List Nat := []
  inside : Bool := false
  ready : Nat → Bool := fun _ => false

/-- A command may come next, and what is then known; `none`: it may not. Query results are not read by commands. -/
def Scan.step (s : Scan) : Mark → Option Scan
  | .label p => some { s with blocks := p :: s.blocks }
  | .endLabel => match s.blocks with
    | [] => none
    | _ :: bs => some { s with blocks := bs }
  | .stamp (.reset o) =>
    if s.inside then none else some { s with ready := fun q => if q = o ∨ q = o + 1 then true else s.ready q }
  | .stamp (.write k) =>
    if s.ready k then some { s with ready := fun q => if q = k then false else s.ready q } else none
  | .stamp (.read _) => none
  | .cmd c =>
    if Brk.Begins c then if s.inside then none else some { s with inside := true }
    else if Brk.Ends c then if s.inside then some { s with inside := false } else none
    else some s

/-- A whole sequence. -/
def Scan.all : Scan → List Mark → Option Scan
  | s, [] => some s
  | s, m :: ms => match s.step m with
    | none => none
    | some s => s.all ms

/-- A command buffer is valid: all of it may be recorded, and at its end every block is closed, no render pass instance is
open and every query reset was written. -/
def Valid (ms : List Mark) : Prop :=
  ∃ s, Scan.all {} ms = some s ∧ s.blocks = [] ∧ s.inside = false ∧ ∀ q, s.ready q = false

/-- The commands, without timestamps and blocks. -/
def commands (ms : List Mark) : List Cmd := ms.filterMap fun | .cmd c => some c | _ => none

/-- What a command buffer holds for a pass: a block named after it, in it a pair of timestamps, between them all the commands. -/
def block (pass query : Nat) (cs : List Cmd) : List Mark :=
  [.label pass, .stamp (.reset query), .stamp (.write query)] ++ cs.map .cmd ++ [.stamp (.write (query + 1)), .endLabel]

end Verif.Lab
