import Verif.Model.DotText
import Verif.Spec.Dot
/-!
C102: a reader of the DOT language, as far as the export uses it (https://graphviz.org/doc/info/lang.html): blanks, words, quoted
strings in which only `\"` stands for another character, and statements.
-/
namespace Verif.Dot

inductive Tok where
  /-- letters, digits and underscores, without quotes -/
  | word (s : String)
  /-- a quoted string -/
  | str (s : String)
  | lbrace | rbrace | lbrack | rbrack | semi | eq | arrow
deriving DecidableEq, Repr

/-- Where the reader is: between tokens; in a word; in a quoted string; after a backslash in it; after a dash. -/
inductive LexSt where
  | idle | word (w : List Char) | str (w : List Char) | esc (w : List Char) | dash
deriving DecidableEq, Repr

def isWord (c : Char) : Bool := c.isAlphanum || c == '_'

/-- A character between tokens. -/
def lexIdle (c : Char) : Option (List Tok × LexSt) :=
  if c = ' ' ∨ c = '\n' ∨ c = '\t' ∨ c = '\r' then some ([], .idle)
  else if c = '{' then some ([.lbrace], .idle)
  else if c = '}' then some ([.rbrace], .idle)
  else if c = '[' then some ([.lbrack], .idle)
  else if c = ']' then some ([.rbrack], .idle)
  else if c = ';' then some ([.semi], .idle)
  else if c = '=' then some ([.eq], .idle)
  else if c = '-' then some ([], .dash)
  else if c = '"' then some ([], .str [])
  else if isWord c then some ([], .word [c])
  else none

/-- A character: the tokens it ends, and where the reader is then. -/
def lexChar : LexSt → Char → Option (List Tok × LexSt)
  | .idle, c => lexIdle c
  | .word w, c =>
    if isWord c then some ([], .word (w ++ [c])) else (lexIdle c).map fun r => (.word (String.ofList w) :: r.1, r.2)
  | .str w, c =>
    if c = '"' then some ([.str (String.ofList w)], .idle)
    else if c = '\\' then some ([], .esc w)
    else some ([], .str (w ++ [c]))
  | .esc w, c => if c = '"' then some ([], .str (w ++ ['"'])) else some ([], .str (w ++ ['\\', c]))
  | .dash, c => if c = '>' then some ([.arrow], .idle) else none

/-- The tokens of a text, and where it leaves the reader. -/
def feed : LexSt → List Char → Option (List Tok × LexSt)
  | st, [] => some ([], st)
  | st, c :: cs => (lexChar st c).bind fun a => (feed a.2 cs).map fun b => (a.1 ++ b.1, b.2)

/-- The tokens of a complete text. -/
def lex (text : List Char) : Option (List Tok) :=
  (feed .idle text).bind fun r =>
    match r.2 with
    | .idle => some r.1
    | .word w => some (r.1 ++ [.word (String.ofList w)])
    | _ => none

/-- What statements say. -/
inductive Item where
  /-- `digraph name {` -/
  | graph (name : Option String)
  /-- `subgraph name {` -/
  | sub (name : String)
  /-- `}` -/
  | close
  /-- `key = value ;` -/
  | attr (key value : String)
  /-- `name [ key = value … ] ;` -/
  | node (name : String) (attrs : List (String × String))
  /-- `src -> dst [ key = value … ] ;` -/
  | edge (src dst : String) (attrs : List (String × String))
deriving DecidableEq, Repr

/-- A statement waiting for its attributes. -/
inductive Head where
  | node (name : String)
  | edge (src dst : String)
deriving DecidableEq, Repr

def Head.item (attrs : List (String × String)) : Head → Item
  | .node n => .node n attrs
  | .edge a b => .edge a b attrs

/-- The statements of a list of tokens, with the head of the statement whose attributes are being read. -/
def statements : Option (Head × List (String × String)) → List Tok → Option (List Item)
  | none, [] => some []
  | none, .word w :: .lbrace :: r => if w = "digraph" then (statements none r).map (.graph none :: ·) else none
  | none, .word w :: .str n :: .lbrace :: r => if w = "digraph" then (statements none r).map (.graph (some n) :: ·) else none
  | none, .word w :: .word n :: .lbrace :: r => if w = "subgraph" then (statements none r).map (.sub n :: ·) else none
  | none, .rbrace :: r => (statements none r).map (.close :: ·)
  | none, .word k :: .eq :: .str v :: .semi :: r => (statements none r).map (.attr k v :: ·)
  | none, .word k :: .eq :: .word v :: .semi :: r => (statements none r).map (.attr k v :: ·)
  | none, .str a :: .arrow :: .str b :: .lbrack :: r => statements (some (.edge a b, [])) r
  | none, .str n :: .lbrack :: r => statements (some (.node n, [])) r
  | some (h, as), .word k :: .eq :: .str v :: r => statements (some (h, as ++ [(k, v)])) r
  | some (h, as), .word k :: .eq :: .word v :: r => statements (some (h, as ++ [(k, v)])) r
  | some (h, as), .rbrack :: .semi :: r => (statements none r).map (h.item as :: ·)
  | _, _ => none

/-- What a text says, read as DOT. None: it isn't DOT (or uses more of DOT than this reader knows). -/
def readDot (text : List Char) : Option (List Item) := (lex text).bind (statements none)

/-- `imgColour`… in a file. -/
def Colour.hex : Colour → String
  | .img => "#8b008b"
  | .buf => "#458b00"
  | .ext => "#ff7f00"
  | .pass => "#00007f"

def Shape.word : Shape → String
  | .ellipse => "ellipse"
  | .box => "box"

/-- The eight shades, lightest first. -/
def shadeHex (n : Nat) : String :=
  ["#FFFFFF", "#EEEEEE", "#DDDDDD", "#CCCCCC", "#BBBBBB", "#AAAAAA", "#999999", "#888888"].getD n ""

/-- What a line of the export is meant to say. -/
def Line.items : Line → List Item
  | .digraph n => [.graph n]
  | .cluster i l c => .sub ("cluster_" ++ toString i) :: .attr "label" l ::
      (match c with | some k => [.attr "style" "filled", .attr "fillcolor" (shadeHex k), .attr "color" "black"] | none => [])
  | .close => [.close]
  | .node n s i c => [.node n ([("shape", s.word)] ++
      (match i with | some i => [("id", toString i)] | none => []) ++
      (match c with | some c => [("style", "filled"), ("fillcolor", "white"), ("color", c.hex)] | none => []))]
  | .edge a b l c => [.edge a b ([("label", l)] ++
      (match c with | some c => [("color", c.hex), ("fontcolor", c.hex)] | none => []))]

/-- The nodes and edges, each with the subgraphs it is in (outermost first). -/
def placed : List String → List Item → List (List String × Item)
  | _, [] => []
  | st, .graph _ :: r => placed st r
  | st, .sub n :: r => placed (st ++ [n]) r
  | st, .close :: r => placed st.dropLast r
  | st, .attr .. :: r => placed st r
  | st, .node n as :: r => (st, .node n as) :: placed st r
  | st, .edge a b as :: r => (st, .edge a b as) :: placed st r

/-- The depth of nesting after some statements; none if a block is closed that wasn't opened, or a graph is opened inside. -/
def nesting : List Item → Nat → Option Nat
  | [], d => some d
  | .graph _ :: _, _ => none
  | .sub _ :: r, d => nesting r (d + 1)
  | .close :: r, d => if d = 0 then none else nesting r (d - 1)
  | .attr .. :: r, d => nesting r d
  | .node .. :: r, d => nesting r d
  | .edge .. :: r, d => nesting r d

/-- One graph, with balanced blocks. -/
def DotGraph (items : List Item) : Prop := ∃ n body, items = .graph n :: body ++ [.close] ∧ nesting body 0 = some 0

def Item.isEdge : Item → Bool
  | .edge .. => true
  | _ => false

def Item.isEllipse : Item → Bool
  | .node _ as => as.lookup "shape" == some "ellipse"
  | _ => false

/-- The names of the clusters of a group. -/
def clusters (cfg : Config) (p : Path) : List String := (place cfg p).map fun c => "cluster_" ++ toString c.1

/-- The statements of a line, where it is. -/
def itemsAt (x : List (Nat × String) × Line) : List (List String × Item) :=
  x.2.items.map fun i => (x.1.map fun c => "cluster_" ++ toString c.1, i)

/-- A name that can be put between quotes as it is: no quote, no end of line, no backslash at the end. -/
structure Quotable (s : String) : Prop where
  quote : '"' ∉ s.toList
  line : '\n' ∉ s.toList
  last : s.toList.getLast? ≠ some '\\'

/-- Names of a transition. -/
structure Tr.Named (t : Tr) : Prop where
  output : Quotable t.output
  input : Quotable t.input
  data : Quotable t.data

/-- Names of a pass and of its groups. -/
structure Info.Named (i : Info) : Prop where
  name : Quotable i.name
  group : ∀ g ∈ i.group, Quotable g.name

/-- The names of the passes of a graph, of their groups and of the transitions between them can be quoted. -/
def Named (G : Graph) (U : List Nat) : Prop := ∀ a ∈ U, (G.info a).Named ∧ ∀ b ∈ G.next a, ∀ x ∈ G.views a b ++ G.buffers a b, x.Named

/-- Names of a transition and of the passes at its ends. -/
structure ETr.Named (x : ETr) : Prop where
  src : ∀ i, x.src = some i → i.Named
  dst : ∀ i, x.dst = some i → i.Named
  tr : x.tr.Named

end Verif.Dot
