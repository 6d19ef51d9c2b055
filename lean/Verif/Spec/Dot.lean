import Verif.Model.Dot
/-! What a DOT text says: nesting, and which lines are in which cluster. -/
namespace Verif.Dot

/-- Nodes and edges. -/
def Line.plain : Line → Bool
  | .node .. => true
  | .edge .. => true
  | _ => false

def Line.isEdge : Line → Bool
  | .edge .. => true
  | _ => false

/-- Passes (and what is outside of the graph) are drawn as ellipses, transitions as boxes. -/
def Line.isEllipse : Line → Bool
  | .node _ .ellipse _ _ => true
  | _ => false

/-- The depth of nesting after some lines; none if a block is closed that wasn't opened, or a graph is opened inside. -/
def balance : List Line → Nat → Option Nat
  | [], d => some d
  | .digraph _ :: _, _ => none
  | .cluster .. :: r, d => balance r (d + 1)
  | .close :: r, d => if d = 0 then none else balance r (d - 1)
  | .node .. :: r, d => balance r d
  | .edge .. :: r, d => balance r d

/-- One graph, from the first line to the last, with balanced blocks. -/
def WellFormed (text : List Line) : Prop :=
  ∃ n body, text = .digraph n :: body ++ [.close] ∧ balance body 0 = some 0

/-- The nodes and edges, each with the clusters it is in (id and label, outermost first). -/
def located : List (Nat × String) → List Line → List (List (Nat × String) × Line)
  | _, [] => []
  | st, .digraph _ :: r => located st r
  | st, .cluster i l _ :: r => located (st ++ [(i, l)]) r
  | st, .close :: r => located st.dropLast r
  | st, .node n s i c :: r => (st, .node n s i c) :: located st r
  | st, .edge a b l c :: r => (st, .edge a b l c) :: located st r

/-- The clusters: how many clusters each is in, and its shade (an index of the eight shades of DotExport.cpp:345-355). -/
def shades : Nat → List Line → List (Nat × Option Nat)
  | _, [] => []
  | d, .cluster _ _ c :: r => (d, c) :: shades (d + 1) r
  | d, .close :: r => shades (d - 1) r
  | d, .digraph _ :: r => shades d r
  | d, .node .. :: r => shades d r
  | d, .edge .. :: r => shades d r

/-- The clusters of a group: none if groups are not asked for. -/
def place (cfg : Config) (p : Path) : List (Nat × String) := if cfg.withGroups then p.map (fun g => (g.id, g.name)) else []

/-- The colour in the text. -/
def shade (cfg : Config) (c : Colour) : Option Colour := if cfg.withColours then some c else none

/-- The line of a pass. -/
def passLine (cfg : Config) (i : Info) : Line :=
  .node i.name .ellipse (if cfg.withIds then some i.id else none) (shade cfg .pass)

/-- A transition from `src` to `dst` through the box `box`: two edges with the name of the data. -/
def twoEdges (cfg : Config) (c : Colour) (src box dst data : String) : List Line :=
  [.edge src box data (shade cfg c), .edge box dst data (shade cfg c)]

/-- The edges of the transitions from pass `a` to pass `b`. -/
def edgeLines (cfg : Config) (G : Graph) (a b : Nat) : List Line :=
  (G.views a b).flatMap (fun x => twoEdges cfg .img (G.info a).name (boxName x) (G.info b).name x.data) ++
  (G.buffers a b).flatMap (fun x => twoEdges cfg .buf (G.info a).name (boxName x) (G.info b).name x.data)

/-- Successors of successors, from the root. -/
inductive Reach (next : Nat → List Nat) : Nat → Prop
  | root {b : Nat} : b ∈ next 0 → Reach next b
  | step {a b : Nat} : Reach next a → b ∈ next a → Reach next b

/-- The nodes `U` of a graph: closed, all reached from the root, whose successors are, once each, nodes without predecessor. -/
structure Nodes (G : Graph) (U : List Nat) : Prop where
  nodup : U.Nodup
  closed : ∀ a, a = 0 ∨ a ∈ U → ∀ b ∈ G.next a, b ∈ U
  first : (G.next 0).Nodup ∧ ∀ b ∈ G.next 0, ∀ a ∈ U, b ∉ G.next a
  reached : ∀ b ∈ U, Reach G.next b

/-- `p` is a group (or a group around it) of one of the passes. -/
def IsGroup (is : List Info) (p : Path) : Prop := p ≠ [] ∧ ∃ i ∈ is, p <+: i.group

/-- Names of groups: not empty, and different for different groups. -/
def GroupNames (is : List Info) : Prop :=
  ∀ p g, IsGroup is (p ++ [g]) → g.name ≠ "" ∧ ∀ q h, IsGroup is (q ++ [h]) → g.name = h.name → p ++ [g] = q ++ [h]

/-- Names of passes: different in the same group. -/
def PassNames (is : List Info) : Prop :=
  ∀ i ∈ is, ∀ j ∈ is, i.group = j.group → i.name = j.name → i = j

/-- The passes that have an edge. -/
def Linked (G : Graph) (U : List Nat) (n : Nat) : Prop := n ∈ U ∧ (G.next n ≠ [] ∨ ∃ a ∈ U, n ∈ G.next a)

/-- How an end of a transition is shown: where, and the line. -/
def endLine (cfg : Config) : Option Info → List (Nat × String) × Line
  | some i => (place cfg i.group, passLine cfg i)
  | none => ([], .node "ExternalSource" .ellipse (if cfg.withIds then some 0 else none) (shade cfg .ext))

/-- The node the first edge of a transition comes from. -/
def srcName : Option Info → String
  | some i => i.name
  | none => "ExternalSource"

/-- The node the second edge of a transition goes to. -/
def dstName : Option Info → String
  | some i => i.name
  | none => "ExternalDestination"

/-- The innermost group of both ends of a transition; none if an end is outside of the graph. -/
def ETr.group (x : ETr) : Path :=
  match x.src, x.dst with
  | some a, some b => common a.group b.group
  | _, _ => []

/-- The two edges of a transition, where they are. -/
def transitionLines (cfg : Config) (c : Colour) (x : ETr) : List (List (Nat × String) × Line) :=
  (twoEdges cfg c (srcName x.src) (tboxName x.tr) (dstName x.dst) x.tr.data).map ((place cfg x.group, ·))

/-- The passes transitions are from or to. -/
def ends (xs : List ETr) : List Info := xs.flatMap fun x => x.src.toList ++ x.dst.toList

end Verif.Dot
