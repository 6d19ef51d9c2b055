import Verif.Model.Groups
/- What the caller of the group API can observe; only the outputs of the calls and the list handed to `compile`
are mentioned. -/
namespace Verif.Groups

/-- The passes successfully created during a history, in creation order, read off the call results. -/
def created (outs : List Out) : List PassDecl :=
  outs.filterMap fun | .pass _ p => some p | _ => none

/-- Whether a group of the graph sits at `path`. -/
def IsGroup (root : Group) (path : Path) (g : Group) : Prop := getAt root path = some g

/-- A graph reached from an empty one through the API. -/
def Reachable (root : Group) : Prop := ∃ name ops, (run (newGraph name) ops).1 = root

end Verif.Groups
