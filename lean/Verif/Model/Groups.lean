/-
Model of the pass groups of a frame graph.
Modelled code: /repo/source/RenderGraph/FramePassGroup.cpp:15-48 (getOutermost, countPasses, countGroups),
68-84 (createPass), 86-104 (createPassGroup), 106-114 (hasPass), 116-127 (listPasses);
/repo/source/RenderGraph/FrameGraph.cpp:155-173 (default group with id 0, forwarding createPass/createPassGroup).
-/
namespace Verif.Groups

/-- A `FramePass` as far as groups are concerned: id and name (FramePass.cpp:188-200). -/
structure PassDecl where
  id : Nat
  name : String
deriving DecidableEq, Repr

/-- `FramePassGroup` (FramePassGroup.hpp:79-91): id, name, owned passes, owned child groups. The parent pointer
is implicit in the tree. `uint32_t` ids/counts are `Nat` (no wrap-around below 2^32 passes). -/
inductive Group where
  | mk (id : Nat) (name : String) (passes : List PassDecl) (groups : List Group)

namespace Group
/-- FramePassGroup.hpp:79 -/
def id : Group → Nat | mk i _ _ _ => i
/-- FramePassGroup.hpp:73-76 (`getName`) -/
def name : Group → String | mk _ n _ _ => n
/-- FramePassGroup.hpp:80 -/
def passes : Group → List PassDecl | mk _ _ ps _ => ps
/-- FramePassGroup.hpp:81 -/
def groups : Group → List Group | mk _ _ _ gs => gs
end Group

mutual
/-- `countPasses`, FramePassGroup.cpp:27-36 (accumulate starting at `passes.size()`). -/
def countPasses : Group → Nat
  | .mk _ _ ps gs => ps.length + countPassesL gs
/-- The `std::accumulate` of `countPasses`. -/
def countPassesL : List Group → Nat
  | [] => 0
  | g :: gs => countPasses g + countPassesL gs
end

mutual
/-- `countGroups`, FramePassGroup.cpp:38-47 (accumulate starting at `groups.size()`). -/
def countGroups : Group → Nat
  | .mk _ _ _ gs => gs.length + countGroupsL gs
/-- The `std::accumulate` of `countGroups`. -/
def countGroupsL : List Group → Nat
  | [] => 0
  | g :: gs => countGroups g + countGroupsL gs
end

mutual
/-- `FramePassGroup::listPasses`, FramePassGroup.cpp:116-127: own passes, then the child groups recursively. -/
def listPasses : Group → List PassDecl
  | .mk _ _ ps gs => ps ++ listPassesL gs
/-- The loop over child groups in `listPasses`. -/
def listPassesL : List Group → List PassDecl
  | [] => []
  | g :: gs => listPasses g ++ listPassesL gs
end

/-- A `FramePassGroup &` held by the user: the child indices from the default group. Groups are never removed
(owned by `unique_ptr` in a growing vector), so it stays valid. -/
abbrev Path := List Nat

/-- Dereference a group reference. -/
def getAt : Group → Path → Option Group
  | g, [] => some g
  | g, k :: p =>
    match g.groups[k]? with
    | some c => getAt c p
    | none => none

/-- Mutate a group through its reference. -/
def updateAt : Group → Path → (Group → Group) → Group
  | g, [], f => f g
  | .mk i n ps gs, k :: p, f =>
    match gs[k]? with
    | some c => .mk i n ps (gs.set k (updateAt c p f))
    | none => .mk i n ps gs

/-- `FramePassGroup::hasPass`, FramePassGroup.cpp:106-114. -/
def hasPass (g : Group) (name : String) : Bool := g.passes.any (fun p => p.name == name)

/-- API calls on a group reference. `FrameGraph::createPass/createPassGroup` (FrameGraph.cpp:163-173) are the
ones with the empty path. -/
inductive Op where
  | createPass (at_ : Path) (name : String)
  | createPassGroup (at_ : Path) (name : String)
deriving DecidableEq, Repr

/-- What the caller observes. -/
inductive Out where
  /-- the returned `FramePass &`: its group, id and name -/
  | pass (at_ : Path) (p : PassDecl)
  /-- `CRG_Exception( "Duplicate FramePass name detected." )` -/
  | duplicateName
  /-- the returned `FramePassGroup &` -/
  | group (at_ : Path)
  /-- not a reference to an existing group: impossible through the API -/
  | badReference
deriving DecidableEq, Repr

/-- Appends a pass to `passes` (`emplace_back`), FramePassGroup.cpp:78-82. -/
def pushPass (p : PassDecl) : Group → Group
  | .mk i n ps gs => .mk i n (ps ++ [p]) gs

/-- Appends a child group (`emplace_back`), FramePassGroup.cpp:98. -/
def pushGroup (c : Group) : Group → Group
  | .mk i n ps gs => .mk i n ps (gs ++ [c])

/-- One API call on the graph `root` (the outermost group, `getOutermost`, FramePassGroup.cpp:17-25). -/
def step (root : Group) : Op → Group × Out
  | .createPass path name =>
    match getAt root path with
    | none => (root, .badReference)
    | some g =>
      if hasPass g name then (root, .duplicateName)
      else
        let p : PassDecl := { id := countPasses root + 1, name := name }
        (updateAt root path (pushPass p), .pass path p)
  | .createPassGroup path name =>
    match getAt root path with
    | none => (root, .badReference)
    | some g =>
      match g.groups.findIdx? (fun c => c.name == name) with
      | some k => (root, .group (path ++ [k]))
      | none =>
        (updateAt root path (pushGroup (.mk (countGroups root + 1) name [] [])),
          .group (path ++ [g.groups.length]))

/-- A history of API calls. -/
def run (root : Group) : List Op → Group × List Out
  | [] => (root, [])
  | op :: ops =>
    let (g, o) := step root op
    let (g', os) := run g ops
    (g', o :: os)

/-- A new `FrameGraph`'s default group, FrameGraph.cpp:155-161. -/
def newGraph (name : String) : Group := .mk 0 name [] []

end Verif.Groups
