import Verif.Lemmas.DotInv
/-! The texts of the groups, one by one, and all of them one after the other. -/
namespace Verif.Dot

/-- The name of the innermost group of a path. -/
def lastName (k : String) (p : Path) : String := (p.getLast?.map (·.name)).getD k

theorem lastName_cons (k : String) (g : Grp) (p : Path) : lastName k (g :: p) = lastName g.name p := last_cons g p k

theorem lastName_mem {t : Tree} {p : Path} (k : String) (h : p ∈ t.paths) : lastName k p ∈ t.keys k := by
  rw [keys_eq]; exact List.mem_map.2 ⟨p, h, rfl⟩

/-- The lines of a group in a forest. -/
def Forest.cell (ks : Forest) : Path → List Line
  | [] => []
  | g :: p => (Tree.cell p (ks.find g)).1

theorem nil_paths (t : Tree) : [] ∈ t.paths := by cases t; simp [Tree.paths]

mutual
theorem write_split (cfg : Config) (hs : cfg.splitGroups = true) : ∀ (t : Tree) (g : Option Grp) (level : Nat)
    (global : List Line) (m : Result), t.Good → (t.keys (keyOf g)).Nodup → (∀ k ∈ t.keys (keyOf g), Result.get m k = []) →
    (∀ p ∈ t.paths, p ≠ [] ∨ g.isSome →
      Result.get (t.write cfg g level global m) (lastName (keyOf g) p) =
        .digraph (some (lastName (keyOf g) p)) :: (t.cell p).1 ++ [.close]) ∧
    ∀ k, (k ∉ t.keys (keyOf g) ∨ (g = none ∧ k = "")) → Result.get (t.write cfg g level global m) k = Result.get m k
  | .mk ls ns ks, g, level, global, m, hg, hn, hm => by
    simp only [Tree.keys, List.nodup_cons] at hn
    simp only [Tree.keys, List.mem_cons] at hm
    simp only [Tree.write, hs, if_true, Tree.keys, List.mem_cons, not_or]
    have hk := forest_write_split cfg hs ks (kidLevel level g) (splitText g ls m) hg.1 hg.2 hn.2 (by
      intro k hk
      cases g with
      | none => exact hm k (.inr hk)
      | some g =>
        have hne : k ≠ g.name := fun e => hn.1 (by rw [keyOf, ← e]; exact hk)
        simp only [splitText]
        rw [get_add, if_neg hne]
        exact hm k (.inr hk))
    constructor
    · intro p hp hpg
      cases p with
      | nil =>
        cases g with
        | none => simp at hpg
        | some g =>
          simp only [lastName, keyOf, List.getLast?_nil, Option.map_none, Option.getD_none, Tree.cell]
          rw [hk.2 g.name hn.1]
          simp only [splitText]
          rw [get_add, if_pos rfl, show Result.get m g.name = [] from hm g.name (.inl rfl), List.nil_append]
      | cons h q =>
        have hq : h :: q ∈ ks.paths := by simpa [Tree.paths] using hp
        have := hk.1 (h :: q) hq
        rw [lastName_cons] at this ⊢
        exact this
    · intro k hk'
      have hks : k ∉ ks.keys := by
        rcases hk' with h | ⟨e1, e2⟩
        · exact h.2
        · rw [e1] at hn; rw [e2]; exact hn.1
      rw [hk.2 k hks]
      cases g with
      | none => rfl
      | some g =>
        have : k ≠ g.name := by
          rcases hk' with h | ⟨e1, e2⟩
          · exact h.1
          · cases e1
        simp only [splitText]
        rw [get_add, if_neg this]
theorem forest_write_split (cfg : Config) (hs : cfg.splitGroups = true) : ∀ (ks : Forest) (level : Nat)
    (m : Result), ks.heads.Nodup → ks.Good → ks.keys.Nodup → (∀ k ∈ ks.keys, Result.get m k = []) →
    (∀ p ∈ ks.paths, Result.get (ks.write cfg none level m) (lastName "" p) =
      .digraph (some (lastName "" p)) :: ks.cell p ++ [.close]) ∧
    ∀ k, k ∉ ks.keys → Result.get (ks.write cfg none level m) k = Result.get m k
  | .nil, level, m, _, _, hn, hm => by simp [Forest.write, Forest.paths]
  | .cons g t r, level, m, hh, hg, hn, hm => by
    simp only [Forest.keys, List.nodup_append] at hn
    obtain ⟨n3, n4, n5⟩ := hn
    simp only [Forest.keys, List.mem_append] at hm
    simp only [Forest.heads, List.nodup_cons] at hh
    have h1 := write_split cfg hs t (some g) level [] m hg.1 n3 (fun k hk => hm k (.inl hk))
    simp only [keyOf] at h1
    simp only [Forest.write, Forest.keys]
    have h2 := forest_write_split cfg hs r level (t.write cfg (some g) level [] m) hh.2 hg.2 n4 (by
        intro k hk
        rw [h1.2 k (.inl (fun h => n5 k h k hk rfl))]
        exact hm k (.inr hk))
    constructor
    · intro p hp
      simp only [Forest.paths, List.mem_append, List.mem_map] at hp
      rcases hp with ⟨q, hq, rfl⟩ | hp
      · rw [lastName_cons]
        have hkey : lastName g.name q ∈ t.keys g.name := lastName_mem _ hq
        rw [h2.2 _ (fun h => n5 _ hkey _ h rfl), h1.1 q hq (.inr rfl)]
        simp [Forest.cell, Forest.find]
      · rw [h2.1 p hp]
        obtain ⟨k, q, e, hk⟩ := head_of_paths r p hp
        have hne : g ≠ k := fun e => hh.1 (e ▸ hk)
        rw [e]
        simp [Forest.cell, Forest.find, hne]
    · intro k hk
      simp only [List.mem_append, not_or] at hk
      rw [h2.2 k hk.2, h1.2 k (.inl hk.1)]
end

/-! ## The lines of one group -/

theorem forest_content_heads : ∀ (ks : Forest) (x : Path × Line), x ∈ ks.content → ∃ g p, x.1 = g :: p ∧ g ∈ ks.heads
  | .nil, x, h => by simp [Forest.content] at h
  | .cons k t r, x, h => by
    simp only [Forest.content, List.mem_append, List.mem_map] at h
    rcases h with ⟨y, _, e⟩ | h
    · exact ⟨k, y.1, by rw [← e], by simp [Forest.heads]⟩
    · obtain ⟨g, p, e, hg⟩ := forest_content_heads r x h
      exact ⟨g, p, e, by simp [Forest.heads, hg]⟩

theorem find_absent (g : Grp) : ∀ ks : Forest, g ∉ ks.heads → ks.find g = Tree.empty
  | .nil, _ => rfl
  | .cons k t r, h => by
    simp only [Forest.heads, List.mem_cons, not_or] at h
    rw [Forest.find, if_neg (Ne.symm h.1)]
    exact find_absent g r h.2

mutual
theorem content_cell : ∀ (t : Tree), t.Good → ∀ p : Path, t.content.filter (fun x => decide (x.1 = p)) = (t.cell p).1.map ((p, ·))
  | .mk ls ns ks, h, p => by
    simp only [Tree.content, List.filter_append]
    cases p with
    | nil =>
      have h1 : ks.content.filter (fun x => decide (x.1 = [])) = [] := by
        rw [List.filter_eq_nil_iff]
        intro x hx
        obtain ⟨g, p, e, _⟩ := forest_content_heads ks x hx
        simp [e]
      rw [h1, List.nil_append, List.filter_eq_self.2]
      · rfl
      · intro x hx
        obtain ⟨l, _, rfl⟩ := List.mem_map.1 hx
        simp
    | cons g p =>
      have h1 : (ls.map (([], ·)) : List (Path × Line)).filter (fun x => decide (x.1 = g :: p)) = [] := by
        rw [List.filter_eq_nil_iff]
        intro x hx
        obtain ⟨l, _, rfl⟩ := List.mem_map.1 hx
        simp
      rw [h1, List.append_nil]
      exact forest_content_cell ks h.1 h.2 g p
theorem forest_content_cell : ∀ (ks : Forest), ks.heads.Nodup → ks.Good → ∀ (g : Grp) (p : Path),
    ks.content.filter (fun x => decide (x.1 = g :: p)) = (Tree.cell p (ks.find g)).1.map ((g :: p, ·))
  | .nil, _, _, g, p => by simp [Forest.content, Forest.find, cell_empty]
  | .cons k t r, hn, h, g, p => by
    simp only [Forest.heads, List.nodup_cons] at hn
    simp only [Forest.content, List.filter_append, List.filter_map, Forest.find]
    have hr := forest_content_cell r hn.2 h.2 g p
    rw [hr]
    by_cases e : k = g
    · subst e
      rw [find_absent k r hn.1, if_pos rfl, cell_empty]
      have ht := content_cell t h.1 p
      have : (t.content.filter ((fun x : Path × Line => decide (x.1 = k :: p)) ∘ fun x => (k :: x.1, x.2))) =
          t.content.filter (fun x => decide (x.1 = p)) := by
        apply List.filter_congr
        intro x _
        simp
      rw [this, ht]
      simp
    · rw [if_neg e]
      have : (t.content.filter ((fun x : Path × Line => decide (x.1 = g :: p)) ∘ fun x => (k :: x.1, x.2))) = [] := by
        rw [List.filter_eq_nil_iff]
        intro x _
        simp [e]
      rw [this]
      simp
end

/-! ## All lines are written -/

theorem get_mem_add (m : Result) (k : String) (ls : List Line) (k' : String) (l : Line) (h : l ∈ Result.get m k') :
    l ∈ Result.get (Result.add m k ls) k' := by
  rw [get_add]
  split
  · rename_i e; rw [← e]; exact List.mem_append.2 (.inl h)
  · exact h

mutual
theorem write_keeps (cfg : Config) : ∀ (t : Tree) (g : Option Grp) (level : Nat) (global : List Line) (m : Result) (k : String) (l : Line),
    l ∈ Result.get m k → l ∈ Result.get (t.write cfg g level global m) k
  | .mk ls ns ks, g, level, global, m, k, l, h => by
    simp only [Tree.write]
    split
    · refine forest_write_keeps cfg ks none _ _ k l ?_
      cases g with
      | none => exact h
      | some g => exact get_mem_add _ _ _ _ _ h
    · exact get_mem_add _ _ _ _ _ (forest_write_keeps cfg ks _ _ _ k l (get_mem_add _ _ _ _ _ h))
theorem forest_write_keeps (cfg : Config) : ∀ (ks : Forest) (key : Option String) (level : Nat) (m : Result) (k : String) (l : Line),
    l ∈ Result.get m k → l ∈ Result.get (ks.write cfg key level m) k
  | .nil, _, _, _, _, _, h => h
  | .cons g t r, key, level, m, k, l, h => by
    simp only [Forest.write]
    refine forest_write_keeps cfg r key level _ k l ?_
    cases key with
    | none => exact write_keeps cfg t _ _ _ _ _ _ h
    | some key => exact get_mem_add _ _ _ _ _ (write_keeps cfg t _ _ _ _ _ _ h)
end

mutual
/-- Every line is in the stream of its group. -/
theorem content_written (cfg : Config) (hs : cfg.splitGroups = false) : ∀ (t : Tree) (g : Option Grp) (level : Nat) (global : List Line)
    (m : Result), ∀ x ∈ t.content, x.2 ∈ Result.get (t.write cfg g level global m) (lastName (keyOf g) x.1)
  | .mk ls ns ks, g, level, global, m, x, hx => by
    simp only [Tree.content, List.mem_append, List.mem_map] at hx
    simp only [Tree.write, hs, Bool.false_eq_true, if_false]
    rcases hx with hx | ⟨l, hl, rfl⟩
    · refine get_mem_add _ _ _ _ _ ?_
      obtain ⟨k, p, e, -⟩ := forest_content_heads ks x hx
      have := forest_content_written cfg hs ks (some (keyOf g)) (kidLevel level g) (Result.add m (keyOf g) (opening cfg level g)) x hx
      rw [e, lastName_cons] at this ⊢
      exact this
    · simp only [lastName, List.getLast?_nil, Option.map_none, Option.getD_none]
      rw [get_add, if_pos rfl]
      simp [hl]
theorem forest_content_written (cfg : Config) (hs : cfg.splitGroups = false) : ∀ (ks : Forest) (key : Option String) (level : Nat)
    (m : Result), ∀ x ∈ ks.content, x.2 ∈ Result.get (ks.write cfg key level m) (lastName "" x.1)
  | .nil, _, _, _, x, hx => by simp [Forest.content] at hx
  | .cons g t r, key, level, m, x, hx => by
    simp only [Forest.content, List.mem_append, List.mem_map] at hx
    simp only [Forest.write]
    rcases hx with ⟨y, hy, rfl⟩ | hx
    · rw [lastName_cons]
      refine forest_write_keeps cfg r key level _ _ _ ?_
      have := content_written cfg hs t (some g) level [] m y hy
      cases key with
      | none => exact this
      | some key => exact get_mem_add _ _ _ _ _ this
    · exact forest_content_written cfg hs r key level _ x hx
end

/-! ## Keys of the result -/

theorem add_keys (m : Result) (k : String) (ls : List Line) (h : (m.map (·.1)).Nodup) :
    ((Result.add m k ls).map (·.1)).Nodup ∧ ∀ x, x ∈ (Result.add m k ls).map (·.1) ↔ x ∈ m.map (·.1) ∨ x = k := by
  induction m with
  | nil => simp [Result.add]
  | cons y m ih =>
    obtain ⟨a, l⟩ := y
    simp only [List.map_cons, List.nodup_cons] at h
    simp only [Result.add]
    split
    · rename_i e
      subst e
      simp only [List.map_cons, List.nodup_cons, List.mem_cons]
      exact ⟨h, fun x => ⟨.inl, fun e => e.elim _root_.id .inl⟩⟩
    · rename_i e
      obtain ⟨i1, i2⟩ := ih h.2
      simp only [List.map_cons, List.nodup_cons, List.mem_cons]
      refine ⟨⟨fun hm => ?_, i1⟩, fun x => ?_⟩
      · rcases (i2 a).1 hm with hm | hm
        · exact h.1 hm
        · exact e hm
      · rw [i2, or_assoc]

mutual
theorem write_keys (cfg : Config) : ∀ (t : Tree) (g : Option Grp) (level : Nat) (global : List Line) (m : Result),
    (m.map (·.1)).Nodup → ((t.write cfg g level global m).map (·.1)).Nodup
  | .mk ls ns ks, g, level, global, m, h => by
    simp only [Tree.write]
    split
    · refine forest_write_keys cfg ks _ _ _ ?_
      cases g with
      | none => exact h
      | some g => exact (add_keys _ _ _ h).1
    · exact (add_keys _ _ _ (forest_write_keys cfg ks _ _ _ (add_keys _ _ _ h).1)).1
theorem forest_write_keys (cfg : Config) : ∀ (ks : Forest) (key : Option String) (level : Nat) (m : Result),
    (m.map (·.1)).Nodup → ((ks.write cfg key level m).map (·.1)).Nodup
  | .nil, _, _, _, h => h
  | .cons g t r, key, level, m, h => by
    simp only [Forest.write]
    refine forest_write_keys cfg r key level _ ?_
    cases key with
    | none => exact write_keys cfg t _ _ _ _ h
    | some key => exact (add_keys _ _ _ (write_keys cfg t _ _ _ _ h)).1
end

theorem get_mem (m : Result) (h : (m.map (·.1)).Nodup) (k : String) (ls : List Line) : (k, ls) ∈ m → Result.get m k = ls := by
  induction m with
  | nil => simp
  | cons y m ih =>
    obtain ⟨a, l⟩ := y
    simp only [List.map_cons, List.nodup_cons] at h
    intro hm
    rcases List.mem_cons.1 hm with e | hm
    · cases e; simp [Result.get]
    · have hne : k ≠ a := fun e => h.1 (List.mem_map.2 ⟨_, hm, e⟩)
      rw [← ih h.2 hm]
      simp [Result.get, List.lookup, beq_false_of_ne hne]

theorem mem_of_get (m : Result) (k : String) (h : Result.get m k ≠ []) : (k, Result.get m k) ∈ m := by
  induction m with
  | nil => simp [Result.get] at h
  | cons y m ih =>
    obtain ⟨a, l⟩ := y
    by_cases e : k = a
    · subst e; simp [Result.get]
    · have e' : Result.get ((a, l) :: m) k = Result.get m k := by simp [Result.get, List.lookup, beq_false_of_ne e]
      rw [e'] at h ⊢
      exact List.mem_cons_of_mem _ (ih h)

/-- The texts in order of names: the root's first, then all others. -/
theorem sorted_texts (m : Result) (h : (m.map (·.1)).Nodup) (h0 : Result.get m "" ≠ []) :
    ∃ rest, (m.mergeSort fun a b => decide (a.1 ≤ b.1)) = ("", Result.get m "") :: rest ∧
      ∀ k, k ≠ "" → Result.get m k ≠ [] → (k, Result.get m k) ∈ rest := by
  have hperm := List.mergeSort_perm m (fun a b => decide (a.1 ≤ b.1))
  have hsort := List.pairwise_mergeSort (le := fun a b : String × List Line => decide (a.1 ≤ b.1))
    (fun a b c h1 h2 => by
      simp only [decide_eq_true_eq] at *
      exact String.le_trans h1 h2)
    (fun a b => by
      simp only [Bool.or_eq_true, decide_eq_true_eq]
      exact String.le_total _ _) m
  have hm := mem_of_get m "" h0
  cases hs : m.mergeSort (fun a b => decide (a.1 ≤ b.1)) with
  | nil => rw [hs] at hperm; rw [← hperm.mem_iff] at hm; cases hm
  | cons y rest =>
    rw [hs] at hperm hsort
    have hy : y = ("", Result.get m "") := by
      rcases List.mem_cons.1 (hperm.mem_iff.2 hm) with e | hr
      · exact e.symm
      · have hle := (List.pairwise_cons.1 hsort).1 _ hr
        simp only [decide_eq_true_eq] at hle
        have e1 : y.1 = "" := by
          have : "" ≤ y.1 := by
            intro h
            have h' : y.1.toList < [] := h
            exact absurd h' (List.not_lt_nil _)
          exact String.le_antisymm hle this
        have := get_mem m h y.1 y.2 (hperm.mem_iff.1 List.mem_cons_self)
        rw [e1] at this
        exact Prod.ext e1 this.symm
    refine ⟨rest, by rw [hy], ?_⟩
    intro k hk hne
    rcases List.mem_cons.1 (hperm.mem_iff.2 (mem_of_get m k hne)) with e | hr
    · rw [hy] at e
      exact absurd (Prod.mk.inj e).1 hk
    · exact hr

theorem balance_append : ∀ (a b : List Line) (d e : Nat), balance a d = some e → balance (a ++ b) d = balance b e
  | [], b, d, e, h => by simp only [balance, Option.some.injEq] at h; rw [h]; rfl
  | .digraph _ :: a, b, d, e, h => by simp [balance] at h
  | .cluster .. :: a, b, d, e, h => balance_append a b (d + 1) e h
  | .close :: a, b, d, e, h => by
    simp only [balance, List.cons_append] at h ⊢
    split at h
    · cases h
    · rename_i hd; rw [if_neg hd]; exact balance_append a b (d - 1) e h
  | .node .. :: a, b, d, e, h => balance_append a b d e h
  | .edge .. :: a, b, d, e, h => balance_append a b d e h

/-- Nothing may follow a graph. -/
theorem wellFormed_append {a b : List Line} (ha : WellFormed a) (hab : WellFormed (a ++ b)) : b = [] := by
  obtain ⟨n, body, e, h⟩ := ha
  obtain ⟨n', body', e', h'⟩ := hab
  rcases List.eq_nil_or_concat b with hb | ⟨b', l, hb⟩
  · exact hb
  · exfalso
    rw [List.concat_eq_append] at hb
    rw [e, hb] at e'
    have e2 : (body ++ [Line.close] ++ b') ++ [l] = body' ++ [.close] := by simpa using (List.cons.inj e').2
    have e3 := (List.append_inj' e2 rfl).1
    rw [← e3, List.append_assoc, balance_append _ _ _ _ h] at h'
    simp [balance] at h'

end Verif.Dot
