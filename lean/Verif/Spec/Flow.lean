import Verif.Model.Sort
/-
What a pass that depends on another one expects of it.
-/
namespace Verif.Run

/-- The pass declares that it depends on the other one: directly, or on a pass of the graph that does. -/
inductive DependsOn (decl : List Sort.Pass) : Sort.Pass → Sort.Pass → Prop
  | direct {q w : Sort.Pass} {d : Sort.Ref} (hw : w ∈ decl) (hd : d ∈ q.deps) (h : d.addr = w.addr) : DependsOn decl q w
  | through {q m w : Sort.Pass} {d : Sort.Ref} (hm : m ∈ decl) (hd : d ∈ q.deps) (h : d.addr = m.addr) (hw : DependsOn decl m w) :
    DependsOn decl q w

end Verif.Run
