import Verif.Model.Sort
/-
Specification of pass ordering, independent of the sorting algorithm: it only mentions the pass data
(`Pass.addr`, `Pass.id`, `Pass.deps`).
-/
namespace Verif.Sort

/-- The passes of one graph as the API produces them: distinct objects, distinct ids (see C04), and a pointer
to a pass of this graph carries that pass's id. Dependencies may also point outside of the graph, with any id. -/
structure WellFormed (passes : List Pass) : Prop where
  addrs : (passes.map Pass.addr).Nodup
  ids : (passes.map Pass.id).Nodup
  refs : ∀ p ∈ passes, ∀ d ∈ p.deps, ∀ q ∈ passes, d.addr = q.addr → d.id = q.id

/-- Every pass comes after all the passes it depends on. -/
def DepsFirst (order : List Pass) : Prop :=
  ∀ l p r, order = l ++ p :: r → ∀ d ∈ p.deps, ∃ q ∈ l, q.addr = d.addr

/-- An acceptable execution order of `passes`. -/
def ValidOrder (passes order : List Pass) : Prop := order.Perm passes ∧ DepsFirst order

/-- There is a pass without dependencies. -/
def HasRoot (passes : List Pass) : Prop := ∃ p ∈ passes, p.deps = []

end Verif.Sort
