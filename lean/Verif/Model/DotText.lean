import Verif.Model.Dot
/-
Model of the characters of the DOT export.
Modelled code: /repo/source/RenderGraph/DotExport.cpp:25-93 (`BasicIndentBuffer`), 185-246 (`Indent`, `installIndentBuffer`), 248-251
(colours), 253-855 (as Model/Dot.lean, which has lines instead of characters).
Simplifications: memory never runs out and streams never fail; the table of the installed buffers (95-183), which only deletes them
when their stream is destroyed, is left out; `iword` (195-209) is only written.
-/
namespace Verif.Dot

/-- A `std::stringstream`: its text, and its indent buffer if one is installed: `m_count`, `m_set` (90-92). -/
structure Stream where
  text : List Char := []
  buf : Option (Nat × Bool) := none
deriving DecidableEq, Repr

/-- `overflow`, 63-87, for a character; the buffer of a plain stream just stores it. -/
def Stream.putChar (s : Stream) (c : Char) : Stream :=
  match s.buf with
  | none => { s with text := s.text ++ [c] }
  | some (n, set) => ⟨s.text ++ (if set then List.replicate n ' ' else []) ++ [c], some (n, decide (c = '\n'))⟩

/-- `stream << text` -/
def Stream.put (s : Stream) (text : List Char) : Stream := text.foldl Stream.putChar s

/-- `stream << Indent{ i }`, 232-246; `installIndentBuffer`, 211-218; `indent`, 51-55. -/
def Stream.indent (s : Stream) (i : Int) : Stream :=
  let b := s.buf.getD (0, true)
  { s with buf := some ((max 0 ((b.1 : Int) + i)).toNat, b.2) }

/-- A quoted name. Nothing is escaped. -/
def quoted (s : String) : List Char := "\"".toList ++ s.toList ++ "\"".toList

/-- The colours, 248-251. -/
def colourText : Colour → List Char
  | .img => "#8b008b".toList
  | .buf => "#458b00".toList
  | .ext => "#ff7f00".toList
  | .pass => "#00007f".toList

/-- The arguments `"box"` (648, 742, 751) and the text of `displayPassNode`. -/
def shapeText : Shape → List Char
  | .ellipse => "ellipse".toList
  | .box => "box".toList

/-- The colours of a node, 480-485, 519-524. -/
def nodeColour : Option Colour → List Char
  | some c => " style=filled".toList ++ " fillcolor=white".toList ++ (" color=\"".toList ++ colourText c ++ "\"".toList)
  | none => []

/-- The identifier of a pass, 514-517. -/
def nodeId : Option Nat → List Char
  | some n => " id=\"".toList ++ (toString n).toList ++ "\"".toList
  | none => []

/-- A node, 478-487, 512-526. -/
def nodeText (name : String) (shape : Shape) (id : Option Nat) (colour : Option Colour) : List Char :=
  (quoted name ++ " [ shape=".toList ++ shapeText shape) ++ nodeId id ++ nodeColour colour ++ " ];\n".toList

/-- The colours of an edge, 543-546. -/
def edgeColour : Option Colour → List Char
  | some c => " color = \"".toList ++ colourText c ++ "\" fontcolor=\"".toList ++ colourText c ++ "\"".toList
  | none => []

/-- An edge, 541-548. -/
def edgeText (src dst label : String) (colour : Option Colour) : List Char :=
  (quoted src ++ " -> ".toList ++ quoted dst ++ " [ label=".toList ++ quoted label) ++ edgeColour colour ++ " ];\n".toList

/-- The table of shades, 344-354. -/
def shadeText : List (List Char) :=
  ["#FFFFFF".toList, "#EEEEEE".toList, "#DDDDDD".toList, "#CCCCCC".toList, "#BBBBBB".toList, "#AAAAAA".toList, "#999999".toList,
    "#888888".toList]

/-- What opens a cluster, 355-363; 7 is the size of the table minus one. -/
def clusterText (cfg : Config) (level : Nat) (g : Grp) : List Char :=
  ("subgraph cluster_".toList ++ (toString g.id).toList ++ " {\n".toList) ++
  ("  label=\"".toList ++ g.name.toList ++ "\";\n".toList) ++
  (if cfg.withColours then
    "  style=filled;\n".toList ++ ("  fillcolor=\"".toList ++ shadeText.getD (min level 7) [] ++ "\";\n".toList) ++
      "  color=black;\n".toList
  else [])

mutual
/-- `FramePassGroupStreams`: `m_stream`, `m_nodes`, `m_children`. -/
inductive TTree where
  | mk (stream : Stream) (names : List String) (kids : TForest)
/-- `m_children`, each with its group, in order of creation. -/
inductive TForest where
  | nil
  | cons (g : Grp) (t : TTree) (rest : TForest)
end

/-- A new `FramePassGroupStreams`, 257-264. -/
def TTree.empty : TTree := .mk {} [] .nil

/-- As `Forest.update`. -/
def TForest.update (g : Grp) (f : TTree → TTree) : TForest → TForest
  | .nil => .cons g (f TTree.empty) .nil
  | .cons h t r => if h = g then .cons h (f t) r else .cons h t (r.update g f)

/-- As `Tree.update`. -/
def TTree.update (f : Stream × List String → Stream × List String) : Path → TTree → TTree
  | [], .mk s ns ks => .mk (f (s, ns)).1 (f (s, ns)).2 ks
  | g :: p, .mk s ns ks => .mk s ns (ks.update g (TTree.update f p))

/-- What `displayNode`, `displayPassNode` and `displayEdge` do with a stream: two columns more for this line. -/
def Stream.row (s : Stream) (text : List Char) : Stream := ((s.indent 2).put text).indent (-2)

/-- `displayNode`, 468-490, and `displayPassNode`, 499-531: once per name and stream. -/
def tdisplayNode (cfg : Config) (p : Path) (name : String) (shape : Shape) (id : Option Nat) (colour : Colour) (t : TTree) : TTree :=
  t.update (fun c =>
    if name ∈ c.2 then c
    else (c.1.row (nodeText name shape id (if cfg.withColours then some colour else none)), name :: c.2)) p

/-- `displayEdge`, 533-550. -/
def tdisplayEdge (cfg : Config) (p : Path) (src dst label : String) (colour : Colour) (t : TTree) : TTree :=
  t.update (fun c => (c.1.row (edgeText src dst label (if cfg.withColours then some colour else none)), c.2)) p

/-- The loops of `printEdge`, 738-754, for one transition. -/
def tprintTransition (cfg : Config) (cur : Path) (src dst : String) (colour : Colour) (t : TTree) (x : Tr) : TTree :=
  let t := tdisplayNode cfg cur (boxName x) .box none colour t
  let t := tdisplayEdge cfg cur src (boxName x) x.data colour t
  tdisplayEdge cfg cur (boxName x) dst x.data colour t

/-- `displayPassNode` of a pass. -/
def tdisplayPass (cfg : Config) (i : Info) (t : TTree) : TTree :=
  tdisplayNode cfg i.group i.name .ellipse (if cfg.withIds then some i.id else none) .pass t

/-- `printEdge`, 698-755. -/
def tprintEdge (cfg : Config) (G : Graph) (t : TTree) (e : Nat × Nat) : TTree :=
  let a := G.info e.1
  let b := G.info e.2
  let t := tdisplayPass cfg b (tdisplayPass cfg a t)
  let cur := common a.group b.group
  let t := (sortTr (G.views e.1 e.2)).foldl (tprintTransition cfg cur a.name b.name .img) t
  (sortTr (G.buffers e.1 e.2)).foldl (tprintTransition cfg cur a.name b.name .buf) t

/-- `DisplayResult`: streams by name of group, in order of insertion. -/
abbrev TResult := List (String × Stream)

/-- `streams.find( key )->second.str()`. -/
def TResult.get (m : TResult) (k : String) : List Char := ((m.lookup k).map (·.text)).getD []

/-- `streams.try_emplace( key ).first->second` is changed. -/
def TResult.change : TResult → String → (Stream → Stream) → TResult
  | [], k, f => [(k, f {})]
  | (k', s) :: m, k, f => if k' = k then (k', f s) :: m else (k', s) :: TResult.change m k f

/-- What opens the text of a group, 340-374, in its stream. -/
def topening (cfg : Config) (level : Nat) (g : Option Grp) (s : Stream) : Stream :=
  let s := match g with
    | some g => if cfg.withGroups then s.put (clusterText cfg level g) else s
    | none => s.put "digraph {\n".toList
  if cfg.withGroups then s.indent 2 else s

/-- What closes it, 384-402. -/
def tclosing (cfg : Config) (global own : List Char) (g : Option Grp) (s : Stream) : Stream :=
  let s := if cfg.withGroups then s.indent (-2) else s
  let s := s.put own
  match g with
  | none => (s.put global).put "}\n".toList
  | some _ => if cfg.withGroups then s.put "}\n".toList else s

/-- The text of a group on its own, 321-329. -/
def tsplit (g : Option Grp) (own : List Char) (m : TResult) : TResult :=
  match g with
  | some g => TResult.change m g.name fun s =>
      ((s.put ("digraph \"".toList ++ g.name.toList ++ "\" {\n".toList)).put own).put "}\n".toList
  | none => m

mutual
/-- `write`, 318-404. -/
def TTree.write (cfg : Config) (g : Option Grp) (level : Nat) (global : List Char) : TTree → TResult → TResult
  | .mk s _ ks, m =>
    if cfg.splitGroups then ks.write cfg none (kidLevel level g) (tsplit g s.text m)
    else
      let m := TResult.change m (keyOf g) (topening cfg level g)
      let m := ks.write cfg (some (keyOf g)) (kidLevel level g) m
      TResult.change m (keyOf g) (tclosing cfg global s.text g)
/-- The loops over `m_children`: 331-334, 376-380. -/
def TForest.write (cfg : Config) (key : Option String) (level : Nat) : TForest → TResult → TResult
  | .nil, m => m
  | .cons g t r, m =>
    let m := t.write cfg (some g) level [] m
    let m := match key with
      | some k => TResult.change m k fun s => s.put (TResult.get m g.name)
      | none => m
    r.write cfg key level m
end

/-- `displayPasses( RunnableGraph, Config )`, 804-811. -/
def tdisplayPasses (cfg : Config) (G : Graph) (fuel : Nat) : TResult :=
  let edges := (visitRoot G.next fuel (G.next 0) []).2
  (edges.foldl (tprintEdge cfg G) TTree.empty).write cfg none 0 [] []

/-- The text `displayPasses( ostream, … )` writes, 821-842, to a stream without indentation. -/
def textPasses (cfg : Config) (G : Graph) (fuel : Nat) : List Char :=
  let m := tdisplayPasses cfg G fuel
  if cfg.splitGroups then ((m.mergeSort fun a b => decide (a.1 ≤ b.1)).filter (fun x => x.1 ≠ "")).flatMap (·.2.text)
  else TResult.get m ""

/-- `displayAttachPass`, 552-571. -/
def tdisplayAttachPass (cfg : Config) (t : TTree) (i : Option Info) : TTree :=
  match i with
  | some i => tdisplayPass cfg i t
  | none => tdisplayNode cfg [] "ExternalSource" .ellipse (if cfg.withIds then some 0 else none) .ext t

/-- `displayTransitionEdge`, 603-651. -/
def tdisplayTransitionEdge (cfg : Config) (colour : Colour) (s : TTree × Stream) (x : ETr) : TTree × Stream :=
  let src := match x.src with | some i => i.name | none => "ExternalSource"
  let dst := match x.dst with | some i => i.name | none => "ExternalDestination"
  let name := tboxName x.tr
  let c : Option Colour := if cfg.withColours then some colour else none
  match x.src, x.dst with
  | some a, some b =>
    let cur := common a.group b.group
    let t := tdisplayNode cfg cur name .box none colour s.1
    let t := tdisplayEdge cfg cur src name x.tr.data colour t
    (tdisplayEdge cfg cur name dst x.tr.data colour t, s.2)
  | _, _ =>
    match s.1 with
    | .mk ls ns ks =>
      let g := if name ∈ ns then s.2 else s.2.row (nodeText name .box none c)
      (.mk ls (if name ∈ ns then ns else name :: ns) ks,
        (g.row (edgeText src name x.tr.data c)).row (edgeText name dst x.tr.data c))

/-- `displayTransitions( RunnableGraph, Config )`: `submit`, 653-684. -/
def tdisplayTransitions (cfg : Config) (views buffers : List ETr) : TResult :=
  let t := (views ++ buffers).foldl (fun t x => tdisplayAttachPass cfg (tdisplayAttachPass cfg t x.src) x.dst) TTree.empty
  let s := views.foldl (tdisplayTransitionEdge cfg .img) (t, {})
  let s := buffers.foldl (tdisplayTransitionEdge cfg .buf) s
  s.1.write cfg none 0 s.2.text []

/-- The text `displayTransitions( ostream, … )` writes, 844-855. -/
def textTransitions (cfg : Config) (views buffers : List ETr) : List Char :=
  ((tdisplayTransitions cfg views buffers).mergeSort fun a b => decide (a.1 ≤ b.1)).flatMap (·.2.text)

end Verif.Dot
