import Verif.Model.Rerecord
import Verif.Model.RenderPass
/-
C100: what recording a pass again on its own must and must not do.
-/
namespace Verif.Rerec
open Verif.Rec Verif.Att Verif.Run

/-- The operation records the whole graph. -/
def Op.whole : Op → Bool
  | .record .. => true
  | .reRecord .. => false

/-- What the user sees of the recordings of a graph, one after the other: the commands to submit, and the states the graph
remembers and gives the graphs that depend on it. -/
def seen (resettable : Nat → Bool) (h : St) : List Op → Option (List (List Cmd × GraphSt))
  | [] => some []
  | o :: os =>
    match step resettable h o with
    | none => none
    | some h' =>
      match seen resettable h' os with
      | none => none
      | some l => some (if o.whole then (h'.main, h'.G) :: l else l)

/-- The commands a pass adds to the command buffer of the graph in a recording of `passes`, starting from `f`. -/
def Adds (env : Env) (G : GraphSt) (index : Nat → Nat) : List RunPass → Frame → RunPass → List Cmd → Prop
  | [], _, _, _ => False
  | p :: next, f, q, cs =>
    let f : Frame := { f with recd := { f.recd with ctx := announce env G p next f.recd.ctx } }
    ∃ f', Run.recordInto env G p (index p.id) f = some f'
      ∧ ((q = p ∧ f'.recd.cmds = f.recd.cmds ++ cs) ∨ Adds env G index next f' q cs)

/-- The callbacks of the pass do not look at the commands already in the command buffer (they can't), only add to them. -/
def Blind (p : RunPass) : Prop :=
  ∀ i (c : Ctx) (cmds : List Cmd), p.body i ⟨c, cmds⟩ = ⟨(p.body i ⟨c, []⟩).ctx, cmds ++ (p.body i ⟨c, []⟩).cmds⟩

/-- The layout `c` gives for a view isn't UNDEFINED. -/
def Knows (m : LayoutMap) (v : View) : Prop := (m.getState v.image v.viewType v.range).layout ≠ Layout.undefined

/-- For each image the pass reads and the graph moves: the tracker `c` knows its layout, or it is declared as an input of the
graph, or the graph remembers the same of it in `F` and in `F'`. -/
def Settled (p : RunPass) (i : Nat) (c inputs F F' : LayoutMap) : Prop :=
  ∀ a ∈ p.images, moved a = true → a.isInput = true → ∀ v, a.img.view i = some v →
    Knows c v ∨ Knows inputs v ∨ F.getState v.image v.viewType v.range = F'.getState v.image v.viewType v.range

/-- The same, for the targets of a pass that draws. -/
def SettledTargets (p : RunPass) (i : Nat) (c inputs F F' : LayoutMap) : Prop :=
  ∀ a ∈ p.images, RPass.isTarget a = true → ∀ v, a.img.view i = some v →
    Knows c v ∨ Knows inputs v ∨ F.getState v.image v.viewType v.range = F'.getState v.image v.viewType v.range

/-- The operation doesn't record pass `p` at index `i` in the command buffer of the graph. -/
def Op.spares (p i : Nat) : Op → Prop
  | .record _ index _ passes => ∀ q ∈ passes, q.id = p → index p ≠ i
  | .reRecord .. => True

end Verif.Rerec
