import Verif.Spec.DotIndent
import Verif.Props.DotText
/-!
C102: the indentation of the exported text.
-/
namespace Verif.Dot

theorem linesOf_nl (r : List Char) : linesOf ('\n' :: r) = ['\n'] :: linesOf r := by
  conv => lhs; unfold linesOf
  exact if_pos rfl

theorem linesOf_char {c : Char} (hc : c ≠ '\n') (r : List Char) :
    linesOf (c :: r) = match linesOf r with | [] => [[c]] | l :: ls => (c :: l) :: ls := by
  conv => lhs; unfold linesOf
  exact if_neg hc

theorem linesOf_join (t : List Char) : (linesOf t).flatten = t := by
  induction t with
  | nil => rfl
  | cons c r ih =>
    unfold linesOf
    split
    · rw [List.flatten_cons, ih]; rfl
    · split
      · rename_i h; rw [h] at ih; rw [← ih]; rfl
      · rename_i l ls h
        rw [h, List.flatten_cons] at ih
        rw [List.flatten_cons, List.cons_append, ih]

/-- A text whose first line isn't moved. -/
def rest (n : Nat) : List (List Char) → List Char
  | [] => []
  | l :: ls => l ++ ls.flatMap (List.replicate n ' ' ++ ·)

theorem put_aux (n : Nat) (t : List Char) : ∀ (x : List Char),
    ((⟨x, some (n, true)⟩ : Stream).put t).text = x ++ indented n t ∧
    ((⟨x, some (n, false)⟩ : Stream).put t).text = x ++ rest n (linesOf t) ∧
    (∃ b, ((⟨x, some (n, true)⟩ : Stream).put t).buf = some (n, b)) ∧
    (∃ b, ((⟨x, some (n, false)⟩ : Stream).put t).buf = some (n, b)) := by
  induction t with
  | nil => intro x; exact ⟨(List.append_nil x).symm, (List.append_nil x).symm, ⟨_, rfl⟩, ⟨_, rfl⟩⟩
  | cons c r ih =>
    intro x
    have e1 : (⟨x, some (n, true)⟩ : Stream).put (c :: r) =
        (⟨x ++ List.replicate n ' ' ++ [c], some (n, decide (c = '\n'))⟩ : Stream).put r := rfl
    have e2 : (⟨x, some (n, false)⟩ : Stream).put (c :: r) =
        (⟨x ++ [] ++ [c], some (n, decide (c = '\n'))⟩ : Stream).put r := rfl
    rw [e1, e2]
    by_cases hc : c = '\n'
    · rw [decide_eq_true hc]
      subst hc
      refine ⟨?_, ?_, (ih _).2.2.1, (ih _).2.2.1⟩
      · rw [(ih _).1]
        unfold indented
        rw [linesOf_nl, List.flatMap_cons]
        simp only [List.append_assoc]
      · rw [(ih _).1]
        unfold indented
        rw [linesOf_nl]
        simp only [rest, List.append_assoc, List.nil_append]
    · rw [decide_eq_false hc]
      have hl := linesOf_char hc r
      refine ⟨?_, ?_, (ih _).2.2.2, (ih _).2.2.2⟩
      · rw [(ih _).2.1]
        unfold indented
        rw [hl]
        cases linesOf r <;> simp [rest]
      · rw [(ih _).2.1, hl]
        cases linesOf r <;> simp [rest]

/-- No indentation leaves the text as it is. -/
theorem indented_zero (t : List Char) : indented 0 t = t := by
  unfold indented
  have e : (fun l : List Char => List.replicate 0 ' ' ++ l) = id := rfl
  rw [e, List.flatMap_id, linesOf_join]

theorem linesOf_indented (n : Nat) (t : List Char) : linesOf (indented n t) = (linesOf t).map (List.replicate n ' ' ++ ·) := by
  have aux : ∀ t : List Char, linesOf (indented n t) = (linesOf t).map (List.replicate n ' ' ++ ·) ∧
      linesOf (rest n (linesOf t)) = match linesOf t with
        | [] => []
        | l :: ls => l :: ls.map (List.replicate n ' ' ++ ·) := by
    intro t
    induction t with
    | nil => exact ⟨rfl, rfl⟩
    | cons c r ih =>
      have sp : ∀ (k : Nat) (x l : List Char) (ls : List (List Char)), linesOf x = l :: ls →
          linesOf (List.replicate k ' ' ++ x) = (List.replicate k ' ' ++ l) :: ls := by
        intro k x l ls h
        induction k with
        | zero => exact h
        | succ k ihk =>
          rw [List.replicate_succ, List.cons_append]
          rw [linesOf_char (by decide), ihk]
          rfl
      have second : linesOf (rest n (linesOf (c :: r))) = match linesOf (c :: r) with
          | [] => []
          | l :: ls => l :: ls.map (List.replicate n ' ' ++ ·) := by
        by_cases hc : c = '\n'
        · subst hc
          rw [linesOf_nl]
          have e : rest n (['\n'] :: linesOf r) = '\n' :: indented n r := rfl
          simp only
          rw [e, linesOf_nl, ih.1]
        · have hl := linesOf_char hc
          rw [hl]
          cases hr : linesOf r with
          | nil =>
            have e : rest n [[c]] = [c] := rfl
            simp only
            rw [e, hl]
            rfl
          | cons l ls =>
            rw [hr] at ih
            simp only at ih ⊢
            have e : rest n ((c :: l) :: ls) = c :: rest n (l :: ls) := rfl
            rw [e, hl, ih.2]
      refine ⟨?_, second⟩
      cases hl : linesOf (c :: r) with
      | nil =>
        have := linesOf_join (c :: r)
        rw [hl] at this
        cases this
      | cons l ls =>
        rw [hl] at second
        have e : indented n (c :: r) = List.replicate n ' ' ++ rest n (l :: ls) := by
          unfold indented
          rw [hl, List.flatMap_cons, List.append_assoc]
          rfl
        rw [e, sp n _ l _ second, List.map_cons]
  exact (aux t).1

/-- Nested indentations add up: what a group wrote to its stream is written to its parent's. -/
theorem indented_indented (a b : Nat) (t : List Char) : indented a (indented b t) = indented (a + b) t := by
  unfold indented
  rw [show (linesOf t).flatMap (List.replicate b ' ' ++ ·) = indented b t from rfl, linesOf_indented, List.flatMap_map]
  have e : (fun l : List Char => List.replicate a ' ' ++ (List.replicate b ' ' ++ l)) = (List.replicate (a + b) ' ' ++ ·) := by
    funext l
    rw [← List.append_assoc, List.replicate_append_replicate]
  exact congrArg (List.flatMap · _) e

/-! ### Streams -/

/-- A stream at the beginning of a line, which indents by `n` columns. -/
def Stream.Fresh (s : Stream) (n : Nat) : Prop := s.buf.getD (0, true) = (n, true)

theorem put_plain (t : List Char) : ∀ x : List Char, (⟨x, none⟩ : Stream).put t = ⟨x ++ t, none⟩ := by
  induction t with
  | nil => intro x; rw [List.append_nil]; rfl
  | cons c r ih =>
    intro x
    have e : (⟨x, none⟩ : Stream).put (c :: r) = (⟨x ++ [c], none⟩ : Stream).put r := rfl
    rw [e, ih, List.append_assoc]
    rfl

theorem putChar_level (s : Stream) (c : Char) : (s.putChar c).level = s.level := by
  obtain ⟨x, b⟩ := s
  cases b with
  | none => rfl
  | some b => rfl

theorem put_level (t : List Char) : ∀ s : Stream, (s.put t).level = s.level := by
  induction t with
  | nil => exact fun _ => rfl
  | cons c r ih => exact fun s => (ih (s.putChar c)).trans (putChar_level s c)

theorem indent_level (s : Stream) (i : Int) : (s.indent i).level = (max 0 ((s.level : Int) + i)).toNat := rfl

theorem indent_fresh {s : Stream} {n : Nat} (h : s.Fresh n) (i : Int) : (s.indent i).Fresh (max 0 ((n : Int) + i)).toNat := by
  unfold Stream.Fresh at h ⊢
  unfold Stream.indent
  rw [h]
  rfl

/-- What is written to a stream at the beginning of a line is moved to the right by what the stream indents by, whether it has an
indent buffer or not. -/
theorem written_indented {s : Stream} {n : Nat} (h : s.Fresh n) (t : List Char) :
    (s.put t).text = s.text ++ indented n t ∧ (s.put t).level = n := by
  refine ⟨?_, ?_⟩
  · obtain ⟨x, b⟩ := s
    cases b with
    | none =>
      obtain rfl : 0 = n := (Prod.mk.inj h).1
      rw [put_plain, indented_zero]
    | some b =>
      obtain rfl : b = (n, true) := h
      exact (put_aux n t x).1
  · rw [put_level]
    unfold Stream.level
    rw [h]

/-- After the end of a line a stream is at the beginning of a line. -/
theorem fresh_after_line {s : Stream} {n : Nat} (h : s.level = n) (t : List Char) : (s.put (t ++ ['\n'])).Fresh n := by
  have e : s.put (t ++ ['\n']) = (s.put t).putChar '\n' := by
    unfold Stream.put
    rw [List.foldl_append]
    rfl
  rw [e]
  have hl : (s.put t).level = n := by rw [put_level, h]
  generalize s.put t = s' at hl
  obtain ⟨x, b⟩ := s'
  unfold Stream.level at hl
  cases b with
  | none => obtain rfl : 0 = n := hl; rfl
  | some b => obtain rfl : b.1 = n := hl; rfl

/-- A line of a node or an edge is two columns further to the right than the stream writes, and leaves the stream as it was, ready for
the next line. -/
theorem row_indented {s : Stream} {n : Nat} (h : s.Fresh n) (t : List Char) :
    (s.row (t ++ ['\n'])).text = s.text ++ indented (n + 2) (t ++ ['\n']) ∧ (s.row (t ++ ['\n'])).Fresh n := by
  have hi : (s.indent 2).Fresh (n + 2) := indent_fresh h 2
  have hw := written_indented hi (t ++ ['\n'])
  refine ⟨hw.1, ?_⟩
  have hf : ((s.indent 2).put (t ++ ['\n'])).Fresh (n + 2) := fresh_after_line (by unfold Stream.level; rw [hi]) t
  have := indent_fresh hf (-2)
  have e : (max 0 (((n + 2 : Nat) : Int) + -2)).toNat = n := by omega
  rw [e] at this
  exact this

/-! ### The whole export restores the indentation of every stream -/

theorem change_level {f : Stream → Stream} {g : Nat → Nat} (hf : ∀ s, (f s).level = g s.level) (k k' : String) :
    ∀ m : TResult, (m.change k f).level k' = if k' = k then g (m.level k) else m.level k'
  | [] => by
    unfold TResult.change TResult.level
    by_cases h : k' = k
    · rw [if_pos h]; subst h
      rw [List.lookup_cons, beq_self_eq_true]
      exact hf {}
    · rw [if_neg h, List.lookup_cons, beq_eq_false_iff_ne.2 h]
  | (k1, s) :: m => by
    have ih := change_level hf k k' m
    unfold TResult.change
    by_cases h1 : k1 = k
    · rw [if_pos h1]; subst h1
      unfold TResult.level
      by_cases h : k' = k1
      · rw [if_pos h]; subst h
        rw [List.lookup_cons, List.lookup_cons, beq_self_eq_true]
        exact hf s
      · rw [if_neg h, List.lookup_cons, List.lookup_cons, beq_eq_false_iff_ne.2 h]
    · rw [if_neg h1]
      unfold TResult.level at ih ⊢
      by_cases h : k' = k1
      · subst h
        rw [if_neg h1, List.lookup_cons, List.lookup_cons, beq_self_eq_true]
      · rw [List.lookup_cons, beq_eq_false_iff_ne.2 h, ih, List.lookup_cons, List.lookup_cons, beq_eq_false_iff_ne.2 h,
          beq_eq_false_iff_ne.2 (Ne.symm h1)]

theorem change_same {f : Stream → Stream} (hf : ∀ s, (f s).level = s.level) (k k' : String) (m : TResult) :
    (m.change k f).level k' = m.level k' := by
  rw [change_level (g := id) hf]
  by_cases h : k' = k
  · rw [if_pos h, h]; rfl
  · rw [if_neg h]

/-- What the groups add while they are open. -/
def openLevel (cfg : Config) : Nat := if cfg.withGroups then 2 else 0

theorem opening_level (cfg : Config) (level : Nat) (g : Option Grp) (s : Stream) :
    (topening cfg level g s).level = s.level + openLevel cfg := by
  have e : ∀ s' : Stream, s'.level = s.level → (if cfg.withGroups then s'.indent 2 else s').level = s.level + openLevel cfg := by
    intro s' h
    unfold openLevel
    by_cases hc : cfg.withGroups = true
    · rw [if_pos hc, if_pos hc, indent_level, h]; omega
    · rw [if_neg hc, if_neg hc, h]; rfl
  unfold topening
  refine e _ ?_
  cases g with
  | none => exact put_level _ s
  | some g =>
    show (if cfg.withGroups then s.put (clusterText cfg level g) else s).level = _
    by_cases hc : cfg.withGroups = true
    · rw [if_pos hc]; exact put_level _ s
    · rw [if_neg hc]

theorem closing_level (cfg : Config) (global own : List Char) (g : Option Grp) (s : Stream) :
    (tclosing cfg global own g s).level = s.level - openLevel cfg := by
  have e : (if cfg.withGroups then s.indent (-2) else s).level = s.level - openLevel cfg := by
    unfold openLevel
    by_cases hc : cfg.withGroups = true
    · rw [if_pos hc, if_pos hc, indent_level]; omega
    · rw [if_neg hc, if_neg hc]; rfl
  unfold tclosing
  cases g with
  | none =>
    show (((_ : Stream).put global).put _).level = _
    rw [put_level, put_level, put_level]
    exact e
  | some g =>
    show (if cfg.withGroups then Stream.put _ _ else _).level = _
    by_cases hc : cfg.withGroups = true
    · rw [if_pos hc, put_level, put_level]; exact e
    · rw [if_neg hc, put_level]; exact e

theorem split_level (g : Option Grp) (own : List Char) (m : TResult) (k : String) : (tsplit g own m).level k = m.level k := by
  cases g with
  | none => rfl
  | some g => exact change_same (fun s => by rw [put_level, put_level, put_level]) _ _ m

mutual
theorem write_level (cfg : Config) (k : String) : ∀ (t : TTree) (g : Option Grp) (level : Nat) (global : List Char) (m : TResult),
    (t.write cfg g level global m).level k = m.level k
  | .mk s ns ks, g, level, global, m => by
    unfold TTree.write
    by_cases hs : cfg.splitGroups = true
    · rw [if_pos hs, kids_level cfg k ks, split_level]
    · rw [if_neg hs]
      show (TResult.change (ks.write cfg (some (keyOf g)) (kidLevel level g) (TResult.change m (keyOf g) (topening cfg level g)))
        (keyOf g) (tclosing cfg global s.text g)).level k = _
      rw [change_level (g := fun n => n - openLevel cfg) (closing_level cfg global s.text g), kids_level cfg, kids_level cfg,
        change_level (g := fun n => n + openLevel cfg) (opening_level cfg level g),
        change_level (g := fun n => n + openLevel cfg) (opening_level cfg level g)]
      by_cases h : k = keyOf g
      · rw [if_pos h, if_pos rfl, h]; omega
      · rw [if_neg h, if_neg h]
theorem kids_level (cfg : Config) (k : String) : ∀ (r : TForest) (key : Option String) (level : Nat) (m : TResult),
    (r.write cfg key level m).level k = m.level k
  | .nil, _, _, m => by unfold TForest.write; rfl
  | .cons g t r, key, level, m => by
    unfold TForest.write
    cases key with
    | none =>
      show (r.write cfg none level (t.write cfg (some g) level [] m)).level k = _
      rw [kids_level cfg k r, write_level cfg k t]
    | some k1 =>
      show (r.write cfg (some k1) level (TResult.change (t.write cfg (some g) level [] m) k1
        fun s => s.put (TResult.get (t.write cfg (some g) level [] m) g.name))).level k = _
      rw [kids_level cfg k r, change_same (fun s => put_level _ s), write_level cfg k t]
end

/-- Whatever the graph, its groups (even called alike) and the configuration, every stream `displayPasses` returns indents by nothing:
what is written to it later starts in the first column. -/
theorem passes_streams_unindented (cfg : Config) (G : Graph) (fuel : Nat) (k : String) :
    (tdisplayPasses cfg G fuel).level k = 0 := by
  unfold tdisplayPasses
  exact write_level cfg k _ none 0 [] []

/-- As `passes_streams_unindented`, for `displayTransitions`. -/
theorem transitions_streams_unindented (cfg : Config) (views buffers : List ETr) (k : String) :
    (tdisplayTransitions cfg views buffers).level k = 0 := by
  unfold tdisplayTransitions
  exact write_level cfg k _ none 0 _ []

/-! ### Examples -/

/-- A text of three lines, one of them empty, written to a stream that indents by two. -/
example : (Stream.put ⟨[], some (2, true)⟩ "a {\n\n  b\n".toList).text = "  a {\n  \n    b\n".toList := by decide

example : (⟨[], some (2, true)⟩ : Stream).Fresh 2 ∧ indented 2 "a\nb".toList = "  a\n  b".toList := ⟨rfl, by decide⟩

end Verif.Dot
