import Verif.Model.Dependency
/-
Model of the export of a runnable graph as DOT text.
Modelled code: /repo/source/RenderGraph/DotExport.cpp:253-443 (`FramePassGroupStreams`), 445-801 (`DotOutVisitor`), 804-855
(`displayPasses`, `displayTransitions`); /repo/source/RenderGraph/GraphNode.cpp:94-99 (name and group of a node).
Simplifications: text is a list of lines, without indentation (22-246) and without the quotes around names (nothing escapes
a quote in a name); of colours only which one is kept. A group is known by its path from the default group: `find`, which compares
pointers in a depth first search, and the recursion of `emplace` on the parent become a descent along the path.
-/
namespace Verif.Dot

/-- `dot::Config`, DotExport.hpp:18-24. -/
structure Config where
  withColours : Bool := false
  withIds : Bool := false
  withGroups : Bool := false
  splitGroups : Bool := false

/-- `imgColour`, `bufColour`, `extColour`, `passColour`, DotExport.cpp:248-251. -/
inductive Colour where
  | img | buf | ext | pass
deriving DecidableEq, Repr

inductive Shape where
  | ellipse | box
deriving DecidableEq, Repr

/-- A line of DOT text. -/
inductive Line where
  /-- `digraph "name" {`, or without name -/
  | digraph (name : Option String)
  /-- `subgraph cluster_id {`, its label and, with colours, the shade (index in the table of 8) -/
  | cluster (id : Nat) (label : String) (shade : Option Nat)
  /-- `}` -/
  | close
  /-- `"name" [ shape=… id=… color=… ];` -/
  | node (name : String) (shape : Shape) (id : Option Nat) (colour : Option Colour)
  /-- `"src" -> "dst" [ label=… color=… ];` -/
  | edge (src dst label : String) (colour : Option Colour)
deriving DecidableEq, Repr

/-- `FramePassGroup` as far as the export is concerned. -/
structure Grp where
  id : Nat
  name : String
deriving DecidableEq, Repr

/-- A group: the path from the default group. Empty: no group (null pointer). -/
abbrev Path := List Grp

mutual
/-- `FramePassGroupStreams`: `m_stream`, `m_nodes`, `m_children`. -/
inductive Tree where
  | mk (lines : List Line) (names : List String) (kids : Forest)
/-- `m_children`, each with its group, in order of creation. -/
inductive Forest where
  | nil
  | cons (g : Grp) (t : Tree) (rest : Forest)
end

/-- A new `FramePassGroupStreams`, 257-264. -/
def Tree.empty : Tree := .mk [] [] .nil

/-- The child with this group is changed, or is created by `emplace`, 266-316. -/
def Forest.update (g : Grp) (f : Tree → Tree) : Forest → Forest
  | .nil => .cons g (f Tree.empty) .nil
  | .cons h t r => if h = g then .cons h (f t) r else .cons h t (r.update g f)

/-- What `emplace` (266-289) returns is changed. -/
def Tree.update (f : List Line × List String → List Line × List String) : Path → Tree → Tree
  | [], .mk ls ns ks => .mk (f (ls, ns)).1 (f (ls, ns)).2 ks
  | g :: p, .mk ls ns ks => .mk ls ns (ks.update g (Tree.update f p))

/-- `displayNode`, 468-490, and `displayPassNode`, 499-531: once per name and stream. -/
def displayNode (cfg : Config) (p : Path) (name : String) (shape : Shape) (id : Option Nat) (colour : Colour) (t : Tree) : Tree :=
  t.update (fun c =>
    if name ∈ c.2 then c
    else (c.1 ++ [.node name shape id (if cfg.withColours then some colour else none)], name :: c.2)) p

/-- `displayEdge`, 533-550. -/
def displayEdge (cfg : Config) (p : Path) (src dst label : String) (colour : Colour) (t : Tree) : Tree :=
  t.update (fun c => (c.1 ++ [.edge src dst label (if cfg.withColours then some colour else none)], c.2)) p

/-- `getCommonGroup`, 583-601: the innermost group both are in. -/
def common : Path → Path → Path
  | g :: p, h :: q => if g = h then g :: common p q else []
  | _, _ => []

/-- A transition as shown: names of the two attachments and of the data. -/
structure Tr where
  output : String
  input : String
  data : String
deriving DecidableEq, Repr

/-- A pass: id, `getGroupName()`, group (GraphNode.cpp:94-99, FramePass.cpp:987-990). -/
structure Info where
  id : Nat
  name : String
  group : Path
deriving DecidableEq, Repr

/-- The graph of nodes: `getNext`, `getInputAttaches` (views, buffers). Node 0 is the root. -/
structure Graph where
  info : Nat → Info
  next : Nat → List Nat
  views : Nat → Nat → List Tr
  buffers : Nat → Nat → List Tr

/-- The name of the box of a transition, DotExport.cpp:741, 750. -/
def boxName (t : Tr) : String := "Transition to\\n" ++ t.input

/-- The loops of `printEdge`, 738-754, for one transition. -/
def printTransition (cfg : Config) (cur : Path) (src dst : String) (colour : Colour) (t : Tree) (x : Tr) : Tree :=
  let t := displayNode cfg cur (boxName x) .box none colour t
  let t := displayEdge cfg cur src (boxName x) x.data colour t
  displayEdge cfg cur (boxName x) dst x.data colour t

/-- `displayPassNode` of a pass. -/
def displayPass (cfg : Config) (i : Info) (t : Tree) : Tree :=
  displayNode cfg i.group i.name .ellipse (if cfg.withIds then some i.id else none) .pass t

/-- `std::sort` by the name of the output attachment, 703-714. -/
def sortTr (l : List Tr) : List Tr := l.mergeSort (fun a b => decide (a.output ≤ b.output))

/-- `printEdge`, 698-755. -/
def printEdge (cfg : Config) (G : Graph) (t : Tree) (e : Nat × Nat) : Tree :=
  let a := G.info e.1
  let b := G.info e.2
  let t := displayPass cfg b (displayPass cfg a t)
  let cur := common a.group b.group
  let t := (sortTr (G.views e.1 e.2)).foldl (printTransition cfg cur a.name b.name .img) t
  (sortTr (G.buffers e.1 e.2)).foldl (printTransition cfg cur a.name b.name .buf) t

/-- The loop of `visitFramePassNode`, 785-793, over the next nodes, `sub` being the visit of one of them. -/
def visitNext (sub : Nat → List Nat → List Nat × List (Nat × Nat)) (n : Nat) :
    List Nat → List Nat → List Nat × List (Nat × Nat)
  | [], vis => (vis, [])
  | m :: ms, vis =>
    let r := if m ∈ vis then (vis, []) else sub m vis
    let r' := visitNext sub n ms r.1
    (r'.1, (n, m) :: r.2 ++ r'.2)

/-- `visitFramePassNode`, 780-794: the nodes visited, and the edges printed in order (printing changes nothing else). The
first number bounds the depth of the recursion. -/
def visit (next : Nat → List Nat) : Nat → Nat → List Nat → List Nat × List (Nat × Nat)
  | 0, n, vis => (n :: vis, [])
  | fuel + 1, n, vis => visitNext (visit next fuel) n (next n) (n :: vis)

/-- `visitRootNode`, 766-778: the successors of the root are visited whether or not they were. -/
def visitRoot (next : Nat → List Nat) (fuel : Nat) : List Nat → List Nat → List Nat × List (Nat × Nat)
  | [], vis => (vis, [])
  | m :: ms, vis =>
    let r := visit next fuel m vis
    let r' := visitRoot next fuel ms r.1
    (r'.1, r.2 ++ r'.2)

/-- `DisplayResult`: text by name of group. In order of insertion (`std::map` sorts it when it is iterated over). -/
abbrev Result := List (String × List Line)

/-- `streams.find( key )->second.str()`. -/
def Result.get (m : Result) (k : String) : List Line := (m.lookup k).getD []

/-- `streams.try_emplace( key ).first->second << lines`. -/
def Result.add : Result → String → List Line → Result
  | [], k, ls => [(k, ls)]
  | (k', l) :: m, k, ls => if k' = k then (k', l ++ ls) :: m else (k', l) :: Result.add m k ls

/-- The key of the stream of a group, 338: the empty name for the root. -/
def keyOf : Option Grp → String
  | some g => g.name
  | none => ""

/-- What opens the text of a group, 340-369, with the shade of its level (422-430). -/
def opening (cfg : Config) (level : Nat) : Option Grp → List Line
  | some g => if cfg.withGroups then [.cluster g.id g.name (if cfg.withColours then some (min level 7) else none)] else []
  | none => [.digraph none]

/-- What closes it, 389-401. -/
def closing (cfg : Config) (global : List Line) : Option Grp → List Line
  | some _ => if cfg.withGroups then [.close] else []
  | none => global ++ [.close]

/-- The level of the children, 422-430: the root and its children have level 0. -/
def kidLevel (level : Nat) : Option Grp → Nat
  | some _ => level + 1
  | none => 0

/-- The text of a group on its own, 321-329. -/
def splitText (g : Option Grp) (ls : List Line) (m : Result) : Result :=
  match g with
  | some g => Result.add m g.name (.digraph (some g.name) :: ls ++ [.close])
  | none => m

mutual
/-- `write`, 318-404. No group: the root. `global` is only given at the root. -/
def Tree.write (cfg : Config) (g : Option Grp) (level : Nat) (global : List Line) : Tree → Result → Result
  | .mk ls _ ks, m =>
    if cfg.splitGroups then ks.write cfg none (kidLevel level g) (splitText g ls m)
    else
      let m := Result.add m (keyOf g) (opening cfg level g)
      let m := ks.write cfg (some (keyOf g)) (kidLevel level g) m
      Result.add m (keyOf g) (ls ++ closing cfg global g)
/-- The loops over `m_children`: 331-334, 376-380 (there the text of the child is copied to the stream of the parent). -/
def Forest.write (cfg : Config) (key : Option String) (level : Nat) : Forest → Result → Result
  | .nil, m => m
  | .cons g t r, m =>
    let m := t.write cfg (some g) level [] m
    let m := match key with
      | some k => Result.add m k (Result.get m g.name)
      | none => m
    r.write cfg key level m
end

/-- `displayPasses( RunnableGraph, Config )`, 804-811; `fuel` bounds the depth of the visit. -/
def displayPasses (cfg : Config) (G : Graph) (fuel : Nat) : Result :=
  let edges := (visitRoot G.next fuel (G.next 0) []).2
  (edges.foldl (printEdge cfg G) Tree.empty).write cfg none 0 [] []

/-- `displayPasses( ostream, … )`, 821-842. -/
def streamPasses (cfg : Config) (G : Graph) (fuel : Nat) : List Line :=
  let m := displayPasses cfg G fuel
  if cfg.splitGroups then ((m.mergeSort fun a b => decide (a.1 ≤ b.1)).filter (fun x => x.1 ≠ "")).flatMap (·.2)
  else Result.get m ""

/-- A transition of `getTransitions()`: attachments' passes (none: outside of the graph), names. -/
structure ETr where
  src : Option Info
  dst : Option Info
  tr : Tr

/-- `displayAttachPass`, 552-571. -/
def displayAttachPass (cfg : Config) (t : Tree) (i : Option Info) : Tree :=
  match i with
  | some i => displayPass cfg i t
  | none => displayNode cfg [] "ExternalSource" .ellipse (if cfg.withIds then some 0 else none) .ext t

/-- The name of the box, 629. -/
def tboxName (t : Tr) : String := t.output ++ "\\ntransition to\\n" ++ t.input

/-- `displayTransitionEdge`, 603-651: to the stream of the common group, or to the global one when an end is outside (the names of
its boxes are those of the root). The state: the groups, the global stream. -/
def displayTransitionEdge (cfg : Config) (colour : Colour) (s : Tree × List Line) (x : ETr) : Tree × List Line :=
  let src := match x.src with | some i => i.name | none => "ExternalSource"
  let dst := match x.dst with | some i => i.name | none => "ExternalDestination"
  let name := tboxName x.tr
  let c : Option Colour := if cfg.withColours then some colour else none
  match x.src, x.dst with
  | some a, some b =>
    let cur := common a.group b.group
    let t := displayNode cfg cur name .box none colour s.1
    let t := displayEdge cfg cur src name x.tr.data colour t
    (displayEdge cfg cur name dst x.tr.data colour t, s.2)
  | _, _ =>
    match s.1 with
    | .mk ls ns ks =>
      let new : List Line := if name ∈ ns then [] else [.node name .box none c]
      (.mk ls (if name ∈ ns then ns else name :: ns) ks,
        s.2 ++ new ++ [.edge src name x.tr.data c, .edge name dst x.tr.data c])

/-- `displayTransitions( RunnableGraph, Config )`: `submit`, 653-684. -/
def displayTransitions (cfg : Config) (views buffers : List ETr) : Result :=
  let t := (views ++ buffers).foldl (fun t x => displayAttachPass cfg (displayAttachPass cfg t x.src) x.dst) Tree.empty
  let s := views.foldl (displayTransitionEdge cfg .img) (t, [])
  let s := buffers.foldl (displayTransitionEdge cfg .buf) s
  s.1.write cfg none 0 s.2 []

/-- `displayTransitions( ostream, … )`, 844-855: every stream, in order of names. -/
def streamTransitions (cfg : Config) (views buffers : List ETr) : List Line :=
  ((displayTransitions cfg views buffers).mergeSort fun a b => decide (a.1 ≤ b.1)).flatMap (·.2)

/-- The graph `RunnableGraph::getGraph` gives: the one `FrameGraph::compile` built (`Model/Dependency.lean`), with the names of
attachments, views and buffers. -/
def ofCompiled (info : Nat → Info) (att : Att.Attachment → String) (view : View → String) (buf : List Nat → String) (g : Deps.Graph) : Graph where
  info := info
  next := g.next
  views a b := (((g.prev b).lookup a).getD {}).views.map fun t => ⟨att t.output, att t.input, view t.data⟩
  buffers a b := (((g.prev b).lookup a).getD {}).buffers.map fun t => ⟨att t.output, att t.input, buf t.data⟩

end Verif.Dot
