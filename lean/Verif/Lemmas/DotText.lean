import Verif.Spec.DotText
/-!
The characters of the DOT export against its lines: streams, and the reader.
-/
namespace Verif.Dot

/-! ### Streams -/

/-- A text is these rows, each with some blanks before it. -/
inductive Indented : List Char → List (List Char) → Prop
  | nil : Indented [] []
  | cons (n : Nat) (r t : List Char) (rs : List (List Char)) : Indented t rs →
      Indented (List.replicate n ' ' ++ r ++ '\n' :: t) (r :: rs)

theorem Indented.append {a b : List Char} {rs ss : List (List Char)} (h : Indented a rs) (h' : Indented b ss) :
    Indented (a ++ b) (rs ++ ss) := by
  induction h with
  | nil => exact h'
  | cons n r t rs _ ih =>
    have := Indented.cons n r _ _ ih
    simpa [List.append_assoc] using this

theorem Indented.one (n : Nat) (r : List Char) : Indented (List.replicate n ' ' ++ r ++ ['\n']) [r] := .cons n r [] [] .nil

/-- The stream is at the start of a line. -/
def AtStart (s : Stream) : Prop := s.buf = none ∨ ∃ n, s.buf = some (n, true)

theorem put_append (s : Stream) (a b : List Char) : s.put (a ++ b) = (s.put a).put b := List.foldl_append

theorem put_none : ∀ (x : List Char) (t : List Char), (⟨t, none⟩ : Stream).put x = ⟨t ++ x, none⟩
  | [], t => by simp [Stream.put]
  | c :: x, t => by
    have := put_none x (t ++ [c])
    simp only [Stream.put, List.foldl_cons, Stream.putChar] at this ⊢
    rw [this]; simp

theorem put_mid (n : Nat) : ∀ (x : List Char) (t : List Char), '\n' ∉ x →
    (⟨t, some (n, false)⟩ : Stream).put x = ⟨t ++ x, some (n, false)⟩
  | [], t, _ => by simp [Stream.put]
  | c :: x, t, h => by
    simp only [List.mem_cons, not_or] at h
    have := put_mid n x (t ++ [c]) h.2
    have hc : decide (c = '\n') = false := decide_eq_false fun e => h.1 e.symm
    simp only [Stream.put, List.foldl_cons, Stream.putChar, hc] at this ⊢
    simp [this]

theorem put_line (n : Nat) (w t : List Char) (h : '\n' ∉ w) :
    (⟨t, some (n, true)⟩ : Stream).put (w ++ ['\n']) = ⟨t ++ (List.replicate n ' ' ++ w ++ ['\n']), some (n, true)⟩ := by
  cases w with
  | nil => simp [Stream.put, Stream.putChar]
  | cons c w =>
    simp only [List.mem_cons, not_or] at h
    have hc : decide (c = '\n') = false := decide_eq_false fun e => h.1 e.symm
    have e : (⟨t, some (n, true)⟩ : Stream).put (c :: w ++ ['\n'])
        = ((⟨t ++ List.replicate n ' ' ++ [c], some (n, false)⟩ : Stream).put w).put ['\n'] := by
      rw [← put_append]
      simp only [Stream.put, List.cons_append, List.foldl_cons, Stream.putChar, hc, if_true]
    rw [e, put_mid n w _ h.2]
    simp [Stream.put, Stream.putChar]

theorem put_indented {x : List Char} {rs : List (List Char)} (hx : Indented x rs) (hn : ∀ r ∈ rs, '\n' ∉ r) {s : Stream}
    (hs : AtStart s) : ∃ y, (s.put x).text = s.text ++ y ∧ Indented y rs ∧ (s.put x).buf = s.buf := by
  obtain ⟨t, b⟩ := s
  rcases hs with hs | ⟨n, hs⟩
  · cases hs
    exact ⟨x, by rw [put_none], hx, by rw [put_none]⟩
  · cases hs
    induction hx generalizing t with
    | nil => exact ⟨[], by simp [Stream.put], .nil, rfl⟩
    | cons m r x rs _ ih =>
      have hw : '\n' ∉ List.replicate m ' ' ++ r := by
        intro h
        rcases List.mem_append.1 h with h | h
        · exact absurd (List.eq_of_mem_replicate h) (by decide)
        · exact hn r List.mem_cons_self h
      have e : List.replicate m ' ' ++ r ++ '\n' :: x = (List.replicate m ' ' ++ r ++ ['\n']) ++ x := by simp
      rw [e, put_append, put_line n _ t hw]
      obtain ⟨y, h1, h2, h3⟩ := ih (fun r hr => hn r (List.mem_cons_of_mem _ hr))
        (t ++ (List.replicate n ' ' ++ (List.replicate m ' ' ++ r) ++ ['\n']))
      refine ⟨List.replicate (n + m) ' ' ++ r ++ '\n' :: y, ?_, .cons _ _ _ _ h2, h3⟩
      rw [h1, ← List.replicate_append_replicate]
      simp only [List.append_assoc, List.cons_append, List.nil_append]

/-! ### Lines and their rows -/

/-- The rows of the shade of a cluster. -/
def shadeRows : Option Nat → List (List Char)
  | some k => ["style=filled;".toList, "fillcolor=\"".toList ++ shadeText.getD k [] ++ "\";".toList, "color=black;".toList]
  | none => []

/-- The rows of a line. -/
def Line.rows : Line → List (List Char)
  | .digraph none => ["digraph {".toList]
  | .digraph (some n) => ["digraph ".toList ++ quoted n ++ " {".toList]
  | .cluster i l c => ["subgraph cluster_".toList ++ (toString i).toList ++ " {".toList, "label=".toList ++ quoted l ++ ";".toList] ++
      shadeRows c
  | .close => ["}".toList]
  | .node n s i c => [(quoted n ++ " [ shape=".toList ++ shapeText s) ++ nodeId i ++ nodeColour c ++ " ];".toList]
  | .edge a b l c => [(quoted a ++ " -> ".toList ++ quoted b ++ " [ label=".toList ++ quoted l) ++ edgeColour c ++ " ];".toList]

/-- The names of a line can be quoted. -/
def Line.Ok : Line → Prop
  | .digraph n => ∀ x, n = some x → Quotable x
  | .cluster _ l _ => Quotable l
  | .close => True
  | .node n _ _ _ => Quotable n
  | .edge a b l _ => Quotable a ∧ Quotable b ∧ Quotable l

theorem quoted_line {s : String} (h : Quotable s) : '\n' ∉ quoted s := by
  unfold quoted
  intro hm
  rcases List.mem_append.1 hm with hm | hm
  · rcases List.mem_append.1 hm with hm | hm
    · exact absurd hm (by decide)
    · exact h.line hm
  · exact absurd hm (by decide)

theorem digits (n : Nat) : ∀ c ∈ (toString n).toList, c.isDigit = true := by
  intro c hc
  have e : (toString n).toList = Nat.toDigits 10 n := by simp
  rw [e] at hc
  exact Nat.isDigit_of_mem_toDigits (by decide) (by decide) hc

theorem digit_ne {c d : Char} (h : c.isDigit = true) (hd : d.isDigit = false) : d ≠ c := by
  rintro rfl
  rw [h] at hd; cases hd

theorem digits_quotable (n : Nat) : Quotable (toString n) := by
  refine ⟨fun h => ?_, fun h => ?_, fun h => ?_⟩
  · exact digit_ne (digits n _ h) (by decide) rfl
  · exact digit_ne (digits n _ h) (by decide) rfl
  · exact digit_ne (digits n _ (List.mem_of_getLast? h)) (by decide) rfl

theorem shade_line : ∀ k, '\n' ∉ shadeText.getD k []
  | 0 | 1 | 2 | 3 | 4 | 5 | 6 | 7 => by decide
  | _ + 8 => by simp [shadeText]

theorem nodeId_line (i : Option Nat) : '\n' ∉ nodeId i := by
  cases i with
  | none => exact fun h => by cases h
  | some n =>
    intro h
    unfold nodeId at h
    rcases List.mem_append.1 h with h | h
    · rcases List.mem_append.1 h with h | h
      · exact absurd h (by decide)
      · exact (digits_quotable n).line h
    · exact absurd h (by decide)

theorem nodeColour_line (c : Option Colour) : '\n' ∉ nodeColour c := by
  cases c with
  | none => exact fun h => by cases h
  | some c => cases c <;> decide

theorem edgeColour_line (c : Option Colour) : '\n' ∉ edgeColour c := by
  cases c with
  | none => exact fun h => by cases h
  | some c => cases c <;> decide

theorem shapeText_line (s : Shape) : '\n' ∉ shapeText s := by cases s <;> decide

theorem not_mem_append' {a b : List Char} {c : Char} (ha : c ∉ a) (hb : c ∉ b) : c ∉ a ++ b := fun h =>
  (List.mem_append.1 h).elim ha hb

theorem rows_line {l : Line} (h : l.Ok) : ∀ r ∈ l.rows, '\n' ∉ r := by
  intro r hr
  cases l with
  | digraph n =>
    cases n with
    | none => simp only [Line.rows, List.mem_singleton] at hr; subst hr; decide
    | some n =>
      simp only [Line.rows, List.mem_singleton] at hr; subst hr
      exact not_mem_append' (not_mem_append' (by decide) (quoted_line (h n rfl))) (by decide)
  | cluster i l c =>
    simp only [Line.rows, List.mem_append, List.mem_cons, List.not_mem_nil, or_false] at hr
    rcases hr with (rfl | rfl) | hr
    · exact not_mem_append' (not_mem_append' (by decide) (digits_quotable i).line) (by decide)
    · exact not_mem_append' (not_mem_append' (by decide) (quoted_line h)) (by decide)
    · cases c with
      | none => cases hr
      | some k =>
        simp only [shadeRows, List.mem_cons, List.not_mem_nil, or_false] at hr
        rcases hr with rfl | rfl | rfl
        · decide
        · exact not_mem_append' (not_mem_append' (by decide) (shade_line k)) (by decide)
        · decide
  | close => simp only [Line.rows, List.mem_singleton] at hr; subst hr; decide
  | node n s i c =>
    simp only [Line.rows, List.mem_singleton] at hr; subst hr
    exact not_mem_append' (not_mem_append' (not_mem_append' (not_mem_append' (not_mem_append' (quoted_line h) (by decide))
      (shapeText_line s)) (nodeId_line i)) (nodeColour_line c)) (by decide)
  | edge a b l c =>
    simp only [Line.rows, List.mem_singleton] at hr; subst hr
    exact not_mem_append' (not_mem_append' (not_mem_append' (not_mem_append' (not_mem_append' (not_mem_append' (quoted_line h.1)
      (by decide)) (quoted_line h.2.1)) (by decide)) (quoted_line h.2.2)) (edgeColour_line c)) (by decide)

/-- A text shows lines whose names can be quoted. -/
structure Shows (x : List Char) (ls : List Line) : Prop where
  rows : Indented x (ls.flatMap Line.rows)
  ok : ∀ l ∈ ls, l.Ok

theorem Shows.nil : Shows [] [] := ⟨.nil, fun _ h => by cases h⟩

theorem Shows.append {a b : List Char} {ls ms : List Line} (h : Shows a ls) (h' : Shows b ms) : Shows (a ++ b) (ls ++ ms) :=
  ⟨by rw [List.flatMap_append]; exact h.rows.append h'.rows, fun l hl => (List.mem_append.1 hl).elim (h.ok l) (h'.ok l)⟩

theorem Shows.line {x : List Char} {ls : List Line} (h : Shows x ls) : ∀ r ∈ ls.flatMap Line.rows, '\n' ∉ r := by
  intro r hr
  obtain ⟨l, hl, hr⟩ := List.mem_flatMap.1 hr
  exact rows_line (h.ok l hl) r hr

theorem shows_one {x : List Char} {l : Line} (h : l.Ok) (hx : Indented x l.rows) : Shows x [l] :=
  ⟨by simpa using hx, fun m hm => by rw [List.mem_singleton.1 hm]; exact h⟩

theorem shows_node {n : String} (h : Quotable n) (s : Shape) (i : Option Nat) (c : Option Colour) :
    Shows (nodeText n s i c) [.node n s i c] := by
  refine shows_one h ?_
  have e : nodeText n s i c = List.replicate 0 ' ' ++
      ((quoted n ++ " [ shape=".toList ++ shapeText s) ++ nodeId i ++ nodeColour c ++ " ];".toList) ++ ['\n'] := by
    have : " ];\n".toList = " ];".toList ++ ['\n'] := by decide
    unfold nodeText
    rw [this]
    simp only [List.append_assoc, List.replicate_zero, List.nil_append]
  rw [e]
  exact .one 0 _

theorem shows_edge {a b l : String} (ha : Quotable a) (hb : Quotable b) (hl : Quotable l) (c : Option Colour) :
    Shows (edgeText a b l c) [.edge a b l c] := by
  refine shows_one ⟨ha, hb, hl⟩ ?_
  have e : edgeText a b l c = List.replicate 0 ' ' ++
      ((quoted a ++ " -> ".toList ++ quoted b ++ " [ label=".toList ++ quoted l) ++ edgeColour c ++ " ];".toList) ++ ['\n'] := by
    have : " ];\n".toList = " ];".toList ++ ['\n'] := by decide
    unfold edgeText
    rw [this]
    simp only [List.append_assoc, List.replicate_zero, List.nil_append]
  rw [e]
  exact .one 0 _

theorem shows_close : Shows "}\n".toList [.close] := shows_one trivial (.one 0 "}".toList)

theorem shows_digraph : Shows "digraph {\n".toList [.digraph none] :=
  shows_one (fun _ h => by cases h) (.one 0 "digraph {".toList)

theorem shows_named {n : String} (h : Quotable n) :
    Shows ("digraph \"".toList ++ n.toList ++ "\" {\n".toList) [.digraph (some n)] := by
  refine shows_one (fun x hx => by cases hx; exact h) ?_
  have e : "digraph \"".toList ++ n.toList ++ "\" {\n".toList
      = List.replicate 0 ' ' ++ ("digraph ".toList ++ quoted n ++ " {".toList) ++ ['\n'] := by
    have h1 : "digraph \"".toList = "digraph ".toList ++ "\"".toList := by decide
    have h2 : "\" {\n".toList = "\"".toList ++ " {".toList ++ ['\n'] := by decide
    unfold quoted
    rw [h1, h2]
    simp only [List.append_assoc, List.replicate_zero, List.nil_append]
  rw [e]
  exact .one 0 _

theorem shows_cluster (cfg : Config) (level : Nat) {g : Grp} (h : Quotable g.name) :
    Shows (clusterText cfg level g) [.cluster g.id g.name (if cfg.withColours then some (min level 7) else none)] := by
  refine shows_one h ?_
  have e1 : "subgraph cluster_".toList ++ (toString g.id).toList ++ " {\n".toList
      = List.replicate 0 ' ' ++ ("subgraph cluster_".toList ++ (toString g.id).toList ++ " {".toList) ++ ['\n'] := by
    have : " {\n".toList = " {".toList ++ ['\n'] := by decide
    rw [this]; simp only [List.append_assoc, List.replicate_zero, List.nil_append]
  have e2 : "  label=\"".toList ++ g.name.toList ++ "\";\n".toList
      = List.replicate 2 ' ' ++ ("label=".toList ++ quoted g.name ++ ";".toList) ++ ['\n'] := by
    have h1 : "  label=\"".toList = List.replicate 2 ' ' ++ "label=".toList ++ "\"".toList := by decide
    have h2 : "\";\n".toList = "\"".toList ++ ";".toList ++ ['\n'] := by decide
    unfold quoted
    rw [h1, h2]; simp only [List.append_assoc]
  have e3 : "  fillcolor=\"".toList ++ shadeText.getD (min level 7) [] ++ "\";\n".toList
      = List.replicate 2 ' ' ++ ("fillcolor=\"".toList ++ shadeText.getD (min level 7) [] ++ "\";".toList) ++ ['\n'] := by
    have h1 : "  fillcolor=\"".toList = List.replicate 2 ' ' ++ "fillcolor=\"".toList := by decide
    have h2 : "\";\n".toList = "\";".toList ++ ['\n'] := by decide
    rw [h1, h2]; simp only [List.append_assoc]
  unfold clusterText
  rw [e1, e2, e3]
  refine ((Indented.one 0 _).append (.one 2 _)).append ?_
  cases cfg.withColours with
  | false => exact .nil
  | true => exact ((Indented.one 2 "style=filled;".toList).append (.one 2 _)).append (.one 2 "color=black;".toList)

/-- A stream holds lines, and is at the start of one. -/
structure Holds (s : Stream) (ls : List Line) : Prop where
  text : Shows s.text ls
  start : AtStart s

theorem Holds.new : Holds {} [] := ⟨.nil, .inl rfl⟩

theorem Holds.put {s : Stream} {ls ms : List Line} {x : List Char} (h : Holds s ls) (hx : Shows x ms) : Holds (s.put x) (ls ++ ms) := by
  obtain ⟨y, h1, h2, h3⟩ := put_indented hx.rows hx.line h.start
  refine ⟨?_, ?_⟩
  · rw [h1]; exact h.text.append ⟨h2, hx.ok⟩
  · unfold AtStart; rw [h3]; exact h.start

theorem Holds.indent {s : Stream} {ls : List Line} (h : Holds s ls) (i : Int) : Holds (s.indent i) ls := by
  refine ⟨h.text, .inr ⟨(max 0 (((s.buf.getD (0, true)).1 : Int) + i)).toNat, ?_⟩⟩
  unfold Stream.indent
  rcases h.start with e | ⟨n, e⟩ <;> rw [e] <;> rfl

theorem Holds.row {s : Stream} {ls ms : List Line} {x : List Char} (h : Holds s ls) (hx : Shows x ms) : Holds (s.row x) (ls ++ ms) :=
  ((h.indent 2).put hx).indent (-2)

/-! ### The reader -/

theorem feed_append : ∀ (a : List Char) (st : LexSt) (b : List Char),
    feed st (a ++ b) = (feed st a).bind fun x => (feed x.2 b).map fun y => (x.1 ++ y.1, y.2)
  | [], st, b => by simp [feed]
  | c :: a, st, b => by
    simp only [List.cons_append, feed]
    cases lexChar st c with
    | none => rfl
    | some x =>
      simp only [Option.bind_some]
      rw [feed_append a x.2 b]
      cases feed x.2 a with
      | none => rfl
      | some y =>
        simp only [Option.bind_some, Option.map_some]
        cases feed y.2 b with
        | none => rfl
        | some z => simp [List.append_assoc]

/-- The reader goes over `a` from `st` to `st'`, and finds these tokens. -/
def Feeds (st : LexSt) (a : List Char) (ts : List Tok) (st' : LexSt) : Prop := feed st a = some (ts, st')

instance (st : LexSt) (a : List Char) (ts : List Tok) (st' : LexSt) : Decidable (Feeds st a ts st') := by
  unfold Feeds; infer_instance

theorem Feeds.append {st st' st'' : LexSt} {a b : List Char} {ts us : List Tok} (h : Feeds st a ts st') (h' : Feeds st' b us st'') :
    Feeds st (a ++ b) (ts ++ us) st'' := by
  unfold Feeds at *
  rw [feed_append, h]
  simp only [Option.bind_some]
  rw [h']
  rfl

theorem Feeds.cons {st st' st'' : LexSt} {c : Char} {b : List Char} {ts us : List Tok} (h : lexChar st c = some (ts, st'))
    (h' : Feeds st' b us st'') : Feeds st (c :: b) (ts ++ us) st'' := by
  unfold Feeds at *
  simp only [feed, h, Option.bind_some]
  rw [h']
  rfl

theorem feeds_blanks : ∀ n, Feeds .idle (List.replicate n ' ') [] .idle
  | 0 => rfl
  | n + 1 => Feeds.cons (by decide : lexChar .idle ' ' = some ([], .idle)) (feeds_blanks n)

theorem feeds_str : ∀ (w : List Char), '"' ∉ w → w.getLast? ≠ some '\\' → ∀ acc,
    Feeds (.str acc) w [] (.str (acc ++ w)) ∧ (w ≠ [] → Feeds (.esc acc) w [] (.str (acc ++ '\\' :: w)))
  | [], _, _, acc => ⟨by simp [Feeds, feed], fun h => absurd rfl h⟩
  | c :: w, hq, hl, acc => by
    simp only [List.mem_cons, not_or] at hq
    have hc : c ≠ '"' := fun e => hq.1 e.symm
    have hl' : w.getLast? ≠ some '\\' := by
      cases w with
      | nil => simp
      | cons d w => simpa [List.getLast?_cons_cons] using hl
    have ih := feeds_str w hq.2 hl'
    constructor
    · by_cases e : c = '\\'
      · subst e
        have hw : w ≠ [] := by
          rintro rfl
          exact hl rfl
        exact Feeds.cons (ts := []) (by simp [lexChar]) ((ih acc).2 hw)
      · have h1 : lexChar (.str acc) c = some ([], .str (acc ++ [c])) := by simp [lexChar, hc, e]
        have h2 := Feeds.cons h1 (ih (acc ++ [c])).1
        simpa [List.append_assoc] using h2
    · intro _
      have h1 : lexChar (.esc acc) c = some ([], .str (acc ++ ['\\', c])) := by simp [lexChar, hc]
      have h2 := Feeds.cons h1 (ih (acc ++ ['\\', c])).1
      simpa [List.append_assoc] using h2

theorem feeds_inside {s : String} (h : Quotable s) : Feeds (.str []) (s.toList ++ "\"".toList) [.str s] .idle := by
  have h1 := (feeds_str s.toList h.quote h.last []).1
  have h2 : Feeds (.str ([] ++ s.toList)) "\"".toList [.str s] .idle := by
    have e : lexChar (.str ([] ++ s.toList)) '"' = some ([.str s], .idle) := by simp [lexChar]
    exact Feeds.cons (us := []) e rfl
  exact h1.append h2

theorem feeds_quoted {s : String} (h : Quotable s) : Feeds .idle (quoted s) [.str s] .idle := by
  unfold quoted
  rw [List.append_assoc]
  exact Feeds.append (ts := []) (by decide : Feeds .idle "\"".toList [] (.str [])) (feeds_inside h)

theorem feeds_word : ∀ (w : List Char), (∀ c ∈ w, isWord c = true) → ∀ acc, Feeds (.word acc) w [] (.word (acc ++ w))
  | [], _, acc => by simp [Feeds, feed]
  | c :: w, h, acc => by
    have h1 : lexChar (.word acc) c = some ([], .word (acc ++ [c])) := by simp [lexChar, h c List.mem_cons_self]
    have h2 := Feeds.cons h1 (feeds_word w (fun d hd => h d (List.mem_cons_of_mem _ hd)) (acc ++ [c]))
    simpa [List.append_assoc] using h2


/-! ### Tokens of lines -/

def shadeToks : Option Nat → List Tok
  | some k => [.word "style", .eq, .word "filled", .semi, .word "fillcolor", .eq, .str (shadeHex k), .semi,
      .word "color", .eq, .word "black", .semi]
  | none => []

def idToks : Option Nat → List Tok
  | some i => [.word "id", .eq, .str (toString i)]
  | none => []

def colourToks : Option Colour → List Tok
  | some c => [.word "style", .eq, .word "filled", .word "fillcolor", .eq, .word "white", .word "color", .eq, .str c.hex]
  | none => []

def edgeToks : Option Colour → List Tok
  | some c => [.word "color", .eq, .str c.hex, .word "fontcolor", .eq, .str c.hex]
  | none => []

/-- The tokens of a line. -/
def Line.toks : Line → List Tok
  | .digraph none => [.word "digraph", .lbrace]
  | .digraph (some n) => [.word "digraph", .str n, .lbrace]
  | .cluster i l c => [.word "subgraph", .word ("cluster_" ++ toString i), .lbrace, .word "label", .eq, .str l, .semi] ++
      shadeToks c
  | .close => [.rbrace]
  | .node n s i c => [.str n, .lbrack, .word "shape", .eq, .word s.word] ++
      idToks i ++
      colourToks c ++ [.rbrack, .semi]
  | .edge a b l c => [.str a, .arrow, .str b, .lbrack, .word "label", .eq, .str l] ++
      edgeToks c ++ [.rbrack, .semi]

/-- The reader finds these tokens in the rows. -/
inductive Reads : List (List Char) → List Tok → Prop
  | nil : Reads [] []
  | cons {r rs ts us} : Feeds .idle r ts .idle → Reads rs us → Reads (r :: rs) (ts ++ us)

theorem Reads.append {rs ss : List (List Char)} {ts us : List Tok} (h : Reads rs ts) (h' : Reads ss us) :
    Reads (rs ++ ss) (ts ++ us) := by
  induction h with
  | nil => exact h'
  | cons hr _ ih => rw [List.append_assoc]; exact .cons hr ih

theorem Reads.one {r : List Char} {ts : List Tok} (h : Feeds .idle r ts .idle) : Reads [r] ts := by
  simpa using Reads.cons h .nil

theorem feeds_indented {x : List Char} {rs : List (List Char)} {ts : List Tok} (h : Indented x rs) (h' : Reads rs ts) :
    Feeds .idle x ts .idle := by
  induction h generalizing ts with
  | nil => cases h'; rfl
  | cons n r t rs _ ih =>
    cases h' with
    | cons hr hs =>
      have h1 := (feeds_blanks n).append hr
      have h2 := h1.append (Feeds.cons (by decide : lexChar .idle '\n' = some ([], .idle)) (ih hs))
      simpa using h2

theorem feeds_shade : ∀ k, Feeds .idle ("fillcolor=\"".toList ++ shadeText.getD k [] ++ "\";".toList)
    [.word "fillcolor", .eq, .str (shadeHex k), .semi] .idle
  | 0 | 1 | 2 | 3 | 4 | 5 | 6 | 7 => by decide
  | k + 8 => by
    have h1 : shadeText.getD (k + 8) [] = [] := by simp [shadeText]
    have h2 : shadeHex (k + 8) = "" := by simp [shadeHex]
    rw [h1, h2]; decide

/-- What follows the name of a node. -/
theorem feeds_node (s : Shape) (i : Option Nat) (c : Option Colour) :
    Feeds .idle (" [ shape=".toList ++ shapeText s ++ nodeId i ++ nodeColour c ++ " ];".toList)
      ([.lbrack, .word "shape", .eq, .word s.word] ++
      idToks i ++
      colourToks c ++ [.rbrack, .semi]) .idle := by
  have colour : ∀ st ts, (st = LexSt.idle ∧ ts = []) ∨ (∃ w, st = .word w ∧ ts = [Tok.word (String.ofList w)]) →
      Feeds st (nodeColour c ++ " ];".toList) (ts ++ (colourToks c ++ [.rbrack, .semi])) .idle := by
    rintro st ts (⟨rfl, rfl⟩ | ⟨w, rfl, rfl⟩)
    · cases c with
      | none => decide
      | some c => cases c <;> decide
    · have hb : lexChar (.word w) ' ' = some ([.word (String.ofList w)], .idle) := by
        simp [lexChar, isWord, lexIdle]
      have step : ∀ x us, Feeds .idle x us .idle → Feeds (.word w) (' ' :: x) ([.word (String.ofList w)] ++ us) .idle :=
        fun x us h => Feeds.cons hb h
      cases c with
      | none => exact step "];".toList [.rbrack, .semi] (by decide)
      | some c =>
        have e : nodeColour (some c) ++ " ];".toList
            = ' ' :: ("style=filled fillcolor=white color=\"".toList ++ colourText c ++ "\" ];".toList) := by
          cases c <;> decide
        rw [e]
        refine step _ _ ?_
        cases c <;> decide
  have shape : Feeds .idle (" [ shape=".toList ++ shapeText s) [.lbrack, .word "shape", .eq] (.word (shapeText s)) := by
    cases s <;> decide
  have word : String.ofList (shapeText s) = s.word := by cases s <;> decide
  cases i with
  | none =>
    have h := shape.append (colour _ _ (.inr ⟨_, rfl, rfl⟩))
    rw [word] at h
    simpa [nodeId, idToks, List.append_assoc] using h
  | some n =>
    have h1 : Feeds (.word (shapeText s)) " id=\"".toList [.word s.word, .word "id", .eq] (.str []) := by
      cases s <;> decide
    have h2 := feeds_inside (digits_quotable n)
    have h := ((shape.append h1).append h2).append (colour _ _ (.inl ⟨rfl, rfl⟩))
    simpa [nodeId, idToks, List.append_assoc] using h

theorem feeds_edge (c : Option Colour) :
    Feeds .idle (edgeColour c ++ " ];".toList) (edgeToks c ++ [.rbrack, .semi]) .idle := by
  cases c with
  | none => decide
  | some c => cases c <;> decide

theorem line_reads {l : Line} (h : l.Ok) : Reads l.rows l.toks := by
  cases l with
  | digraph n =>
    cases n with
    | none => exact .one (by decide)
    | some n =>
      refine .one ?_
      have h0 : Feeds .idle "digraph ".toList [.word "digraph"] .idle := by decide
      have h1 : Feeds .idle " {".toList [.lbrace] .idle := by decide
      exact (h0.append (feeds_quoted (h n rfl))).append h1
  | cluster i l c =>
    have h0 : Feeds .idle "subgraph cluster_".toList [.word "subgraph"] (.word "cluster_".toList) := by decide
    have hw : ∀ d ∈ (toString i).toList, isWord d = true := by
      intro d hd
      have := digits i d hd
      simp [isWord, Char.isAlphanum, this]
    have h1 := feeds_word _ hw "cluster_".toList
    have h2 : Feeds (.word ("cluster_".toList ++ (toString i).toList)) " {".toList
        [.word ("cluster_" ++ toString i), .lbrace] .idle := by
      have e : lexChar (.word ("cluster_".toList ++ (toString i).toList)) ' ' = some ([.word ("cluster_" ++ toString i)], .idle) := by
        have : String.ofList ("cluster_".toList ++ (toString i).toList) = "cluster_" ++ toString i := by
          rw [← String.toList_append, String.ofList_toList]
        have h5 : isWord ' ' = false := by decide
        have h6 : lexIdle ' ' = some ([], .idle) := by decide
        simp only [lexChar, this, h5, h6]
        rfl
      exact Feeds.cons e (by decide : Feeds .idle "{".toList [.lbrace] .idle)
    have hA := (h0.append h1).append h2
    have hB : Feeds .idle ("label=".toList ++ quoted l ++ ";".toList) [.word "label", .eq, .str l, .semi] .idle := by
      have h3 : Feeds .idle "label=".toList [.word "label", .eq] .idle := by decide
      have h4 : Feeds .idle ";".toList [.semi] .idle := by decide
      exact (h3.append (feeds_quoted h)).append h4
    have hC : Reads (shadeRows c) (shadeToks c) := by
      cases c with
      | none => exact .nil
      | some k =>
        exact .cons (ts := [.word "style", .eq, .word "filled", .semi]) (by decide)
          (.cons (feeds_shade k) (.one (ts := [.word "color", .eq, .word "black", .semi]) (by decide)))
    exact ((Reads.one hA).append (Reads.one hB)).append hC
  | close => exact .one (by decide)
  | node n s i c =>
    refine .one ?_
    have := (feeds_quoted h).append (feeds_node s i c)
    simpa [Line.toks, List.append_assoc] using this
  | edge a b l c =>
    refine .one ?_
    have h1 : Feeds .idle " -> ".toList [.arrow] .idle := by decide
    have h2 : Feeds .idle " [ label=".toList [.lbrack, .word "label", .eq] .idle := by decide
    have := ((((feeds_quoted h.1).append h1).append (feeds_quoted h.2.1)).append h2).append (feeds_quoted h.2.2)
    have := this.append (feeds_edge c)
    simpa [Line.toks, List.append_assoc] using this

theorem lines_read : ∀ ls : List Line, (∀ l ∈ ls, l.Ok) → Reads (ls.flatMap Line.rows) (ls.flatMap Line.toks)
  | [], _ => .nil
  | l :: ls, h => by
    rw [List.flatMap_cons, List.flatMap_cons]
    exact (line_reads (h l List.mem_cons_self)).append (lines_read ls fun m hm => h m (List.mem_cons_of_mem _ hm))

theorem line_statements (l : Line) (r : List Tok) : statements none (l.toks ++ r) = (statements none r).map (l.items ++ ·) := by
  cases l with
  | digraph n => cases n <;> simp [Line.toks, Line.items, statements]
  | cluster i l c => cases c <;> simp [Line.toks, Line.items, statements, shadeToks, Function.comp_def]
  | close => simp [Line.toks, Line.items, statements]
  | node n s i c => cases i <;> cases c <;> simp [Line.toks, Line.items, statements, idToks, colourToks, Head.item]
  | edge a b l c => cases c <;> simp [Line.toks, Line.items, statements, edgeToks, Head.item]

theorem lines_statements : ∀ ls : List Line, statements none (ls.flatMap Line.toks) = some (ls.flatMap Line.items)
  | [] => rfl
  | l :: ls => by rw [List.flatMap_cons, line_statements, lines_statements ls]; rfl

/-- What a text that shows lines says. -/
theorem shows_read {x : List Char} {ls : List Line} (h : Shows x ls) : readDot x = some (ls.flatMap Line.items) := by
  have h1 := feeds_indented h.rows (lines_read ls h.ok)
  unfold readDot lex
  rw [h1]
  simp only [Option.bind_some]
  exact lines_statements ls

end Verif.Dot
