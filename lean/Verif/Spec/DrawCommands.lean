import Verif.Model.DrawCommands
import Verif.Model.Resources
/-
What drawing commands draw, after the Vulkan specification (Drawing Commands), for triangle lists and strips.
-/
namespace Verif.DrawCmd

/-- Where the number of vertices and instances of a draw comes from. -/
inductive Source where
  /-- consecutive vertices -/
  | vertices (count instances first firstInstance : Nat)
  /-- vertices designated by consecutive indices of an index buffer (buffer, offset, type) -/
  | indices (buffer : Nat × Nat × Nat) (count instances first vertexOffset firstInstance : Nat)
  /-- `count` structures of the buffer -/
  | indirect (buffer offset count stride : Nat)
  | indexedIndirect (buffer : Nat × Nat × Nat) (from_ offset count stride : Nat)
  /-- an indexed draw without an index buffer: invalid -/
  | invalid
deriving DecidableEq, Repr

/-- A draw: the vertex buffer bound (and its offset) and what is drawn. -/
structure Drawn where
  vertex : Option (Nat × Nat)
  source : Source
deriving DecidableEq, Repr

/-- What is bound. -/
structure Bound where
  vertex : Option (Nat × Nat) := none
  index : Option (Nat × Nat × Nat) := none
deriving DecidableEq, Repr

/-- What a command binds. -/
def Bound.after (b : Bound) : Cmd → Bound
  | .bindVertex v o => { b with vertex := some (v, o) }
  | .bindIndex i o t => { b with index := some (i, o, t) }
  | _ => b

/-- What a command draws. -/
def Bound.draws (b : Bound) : Cmd → List Drawn
  | .draw n i f fi => [⟨b.vertex, .vertices n i f fi⟩]
  | .drawIndexed n i f vo fi => [⟨b.vertex, (b.index.map fun x => .indices x n i f vo fi).getD .invalid⟩]
  | .drawIndirect d o c s => [⟨b.vertex, .indirect d o c s⟩]
  | .drawIndexedIndirect d o c s => [⟨b.vertex, (b.index.map fun x => .indexedIndirect x d o c s).getD .invalid⟩]
  | _ => []

def boundAfter (b : Bound) (cs : List Cmd) : Bound := cs.foldl Bound.after b

/-- The draws of a list of commands. -/
def drawn : Bound → List Cmd → List Drawn
  | _, [] => []
  | b, c :: cs => b.draws c ++ drawn (b.after c) cs

/-- The triangles of `n` consecutive vertices (or indices) from `first`: "a triangle for each vertex triple" (list), "a
triangle for each vertex and its two predecessors" (strip; the winding of every other one is reversed). -/
def triangles (t : Topology) (first n : Nat) : List (Nat × Nat × Nat) :=
  match t with
  | .triangleList => (List.range (n / 3)).map fun i => (first + 3 * i, first + 3 * i + 1, first + 3 * i + 2)
  | .triangleStrip => (List.range (n - 2)).map fun i =>
      if i % 2 = 0 then (first + i, first + i + 1, first + i + 2) else (first + i, first + i + 2, first + i + 1)

/-- Twice the signed area of a triangle; its sign tells on which side of the line `a b` the point is. -/
def side (ax ay bx by_ px py : Int) : Int := (bx - ax) * (py - ay) - (by_ - ay) * (px - ax)

/-- A point is inside (or on the border of) a triangle: on the same side of its three edges. Coordinates of the vertices are
multiplied by `n` to have points between the integers. -/
def Inside (n : Int) (a b c : Res.Vertex) (x y : Int) : Prop :=
  (0 ≤ side (n * a.x) (n * a.y) (n * b.x) (n * b.y) x y ∧ 0 ≤ side (n * b.x) (n * b.y) (n * c.x) (n * c.y) x y
    ∧ 0 ≤ side (n * c.x) (n * c.y) (n * a.x) (n * a.y) x y)
  ∨ (side (n * a.x) (n * a.y) (n * b.x) (n * b.y) x y ≤ 0 ∧ side (n * b.x) (n * b.y) (n * c.x) (n * c.y) x y ≤ 0
    ∧ side (n * c.x) (n * c.y) (n * a.x) (n * a.y) x y ≤ 0)

/-- The buffer for an index: the only one, or the one at the index. -/
def Picks (buffers : List Nat) (index handle : Nat) : Prop := buffers = [handle] ∨ buffers.length ≠ 1 ∧ buffers[index]? = some handle

end Verif.DrawCmd
