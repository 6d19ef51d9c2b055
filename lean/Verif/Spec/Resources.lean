import Verif.Model.Resources
/-
Specification vocabulary for resources.
-/
namespace Verif.Res

/-- The driver's view of a series of calls, from a set of live handles: only handles that are not live are created,
only live ones are destroyed; `live'` are the live ones at the end, `old` those ever created. -/
inductive Lawful : List Nat → List Nat → List Event → List Nat → Prop
  | nil (old live : List Nat) : Lawful old live [] live
  | create {old live live' : List Nat} {es : List Event} (ctx h : Nat) (hn : h ∉ old) (hs : Lawful (h :: old) (h :: live) es live') :
      Lawful old live (.create ctx h :: es) live'
  | destroy {old live live' : List Nat} {es : List Event} (ctx h : Nat) (hm : h ∈ live) (hs : Lawful old (live.filter (· != h)) es live') :
      Lawful old live (.destroy ctx h :: es) live'

/-- `u` and `v` at the point `(x, y)` (all times 4, to stay with integers): the affine map with these values at the
vertices `a`, `b` (same `x`) and `c` (same `y` as `b`). -/
structure Affine (a b c : Vertex) (value : Vertex → Int) (x y : Int) (r : Int) : Prop where
  shape : a.x = b.x ∧ b.y = c.y ∧ b.y - a.y = 4 ∧ c.x - b.x = 4
  eq : r = 4 * value b + (value c - value b) * (x - b.x) - (value b - value a) * (b.y - y)

end Verif.Res
