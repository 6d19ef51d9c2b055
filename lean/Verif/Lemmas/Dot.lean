import Verif.Spec.Dot
/-! Lemmas about the streams of groups. -/
namespace Verif.Dot

/-! ## The tree of streams -/

/-- The streams of the child with this group; empty ones if there is none. -/
def Forest.find (g : Grp) : Forest → Tree
  | .nil => Tree.empty
  | .cons h t r => if h = g then t else r.find g

/-- The lines and names of a group. -/
def Tree.cell : Path → Tree → List Line × List String
  | [], .mk ls ns _ => (ls, ns)
  | g :: p, .mk _ _ ks => Tree.cell p (ks.find g)

theorem cell_empty (p : Path) : Tree.empty.cell p = ([], []) := by
  induction p with
  | nil => rfl
  | cons g p ih => exact ih

theorem find_update (g h : Grp) (F : Tree → Tree) : ∀ ks : Forest,
    (ks.update g F).find h = if h = g then F (ks.find g) else ks.find h
  | .nil => by
    simp only [Forest.update, Forest.find]
    by_cases e : h = g
    · simp [e]
    · simp [e, Ne.symm e]
  | .cons k t r => by
    simp only [Forest.update]
    by_cases e : k = g
    · subst e
      simp only [if_pos, Forest.find]
      by_cases e' : k = h
      · simp [e']
      · simp [e', Ne.symm e']
    · simp only [if_neg e, Forest.find]
      rw [find_update g h F r]
      by_cases e' : h = g
      · subst e'; simp [e]
      · simp [e']

theorem cell_update (f : List Line × List String → List Line × List String) : ∀ (p : Path) (t : Tree) (q : Path),
    (t.update f p).cell q = if q = p then f (t.cell p) else t.cell q := by
  intro p
  induction p with
  | nil =>
    intro t q
    cases t with | mk ls ns ks =>
    cases q with
    | nil => simp [Tree.update, Tree.cell]
    | cons g q => simp [Tree.update, Tree.cell]
  | cons g p ih =>
    intro t q
    cases t with | mk ls ns ks =>
    cases q with
    | nil => simp [Tree.update, Tree.cell]
    | cons h q =>
      simp only [Tree.update, Tree.cell, find_update, List.cons.injEq]
      by_cases e : h = g
      · subst e; simp [ih]
      · simp [e]

mutual
/-- All lines, with their group: the children's, then one's own. -/
def Tree.content : Tree → List (Path × Line)
  | .mk ls _ ks => ks.content ++ ls.map (([], ·))
def Forest.content : Forest → List (Path × Line)
  | .nil => []
  | .cons g t r => t.content.map (fun x => (g :: x.1, x.2)) ++ r.content
end

theorem content_empty : Tree.empty.content = [] := rfl

theorem perm_middle {α : Type} (a b c : List α) : (a ++ b ++ c).Perm (a ++ c ++ b) := by
  rw [List.append_assoc, List.append_assoc]
  exact List.Perm.append_left _ List.perm_append_comm

theorem forest_content_update (g : Grp) (F : Tree → Tree) (new : List (Path × Line))
    (ks : Forest) (h : (F (ks.find g)).content.Perm ((ks.find g).content ++ new)) :
    (ks.update g F).content.Perm (ks.content ++ new.map (fun x => (g :: x.1, x.2))) := by
  revert h
  match ks with
  | .nil =>
    intro h
    simp only [Forest.update, Forest.content, Forest.find, content_empty, List.nil_append, List.append_nil] at h ⊢
    exact h.map _
  | .cons k t r =>
    intro h
    simp only [Forest.update]
    by_cases e : k = g
    · subst e
      simp only [Forest.find, if_pos] at h
      simp only [if_pos, Forest.content]
      refine (List.Perm.append_right _ (h.map _)).trans ?_
      rw [List.map_append]
      exact perm_middle _ _ _
    · simp only [Forest.find, if_neg e] at h
      simp only [if_neg e, Forest.content, List.append_assoc]
      exact List.Perm.append_left _ (forest_content_update g F new r h)

/-- Lines are appended to the lines of a group. -/
theorem content_update (f : List Line × List String → List Line × List String) (new : List Line) : ∀ (p : Path) (t : Tree),
    (f (t.cell p)).1 = (t.cell p).1 ++ new → (t.update f p).content.Perm (t.content ++ new.map ((p, ·))) := by
  intro p
  induction p with
  | nil =>
    intro t h
    cases t with | mk ls ns ks =>
    simp only [Tree.cell] at h
    simp only [Tree.update, Tree.content, h, List.map_append, List.append_assoc]
    exact List.Perm.refl _
  | cons g p ih =>
    intro t h
    cases t with | mk ls ns ks =>
    simp only [Tree.cell] at h
    simp only [Tree.update, Tree.content]
    have := forest_content_update g (Tree.update f p) (new.map ((p, ·))) ks (ih _ h)
    rw [List.map_map] at this
    refine (List.Perm.append_right _ this).trans ?_
    exact perm_middle _ _ _

mutual
/-- All groups. -/
def Tree.paths : Tree → List Path
  | .mk _ _ ks => [] :: ks.paths
def Forest.paths : Forest → List Path
  | .nil => []
  | .cons g t r => t.paths.map (g :: ·) ++ r.paths
end

def Forest.heads : Forest → List Grp
  | .nil => []
  | .cons g _ r => g :: r.heads

mutual
/-- No group has two children with the same group. -/
def Tree.Good : Tree → Prop
  | .mk _ _ ks => ks.heads.Nodup ∧ ks.Good
def Forest.Good : Forest → Prop
  | .nil => True
  | .cons _ t r => t.Good ∧ r.Good
end

theorem good_empty : Tree.empty.Good := ⟨by simp [Forest.heads], trivial⟩

theorem heads_update (g : Grp) (F : Tree → Tree) : ∀ ks : Forest,
    (ks.update g F).heads = if g ∈ ks.heads then ks.heads else ks.heads ++ [g]
  | .nil => by simp [Forest.update, Forest.heads]
  | .cons k t r => by
    simp only [Forest.update]
    by_cases e : k = g
    · simp [e, Forest.heads]
    · simp only [if_neg e, Forest.heads, heads_update g F r, List.mem_cons, Ne.symm e, false_or]
      split <;> simp

theorem good_forest_update (g : Grp) (F : Tree → Tree) (hF : ∀ t : Tree, t.Good → (F t).Good) : ∀ ks : Forest,
    ks.Good → (ks.update g F).Good
  | .nil => fun _ => ⟨hF _ good_empty, trivial⟩
  | .cons k t r => fun h => by
    simp only [Forest.update]
    split
    · exact ⟨hF _ h.1, h.2⟩
    · exact ⟨h.1, good_forest_update g F hF r h.2⟩

theorem good_update (f : List Line × List String → List Line × List String) : ∀ (p : Path) (t : Tree), t.Good → (t.update f p).Good := by
  intro p
  induction p with
  | nil => intro t h; cases t; exact h
  | cons g p ih =>
    intro t h
    cases t with | mk ls ns ks =>
    refine ⟨?_, good_forest_update g _ ih ks h.2⟩
    rw [heads_update]
    split
    · exact h.1
    · rename_i hg
      rw [List.nodup_append]
      refine ⟨h.1, by simp, ?_⟩
      intro a ha b hb e
      rw [List.mem_singleton.1 hb] at e
      exact hg (e ▸ ha)

theorem head_of_paths : ∀ (ks : Forest) (q : Path), q ∈ ks.paths → ∃ g p, q = g :: p ∧ g ∈ ks.heads
  | .nil, q, h => by simp [Forest.paths] at h
  | .cons k t r, q, h => by
    simp only [Forest.paths, List.mem_append, List.mem_map] at h
    rcases h with ⟨p, _, e⟩ | h
    · exact ⟨k, p, e.symm, by simp [Forest.heads]⟩
    · obtain ⟨g, p, e, hg⟩ := head_of_paths r q h
      exact ⟨g, p, e, by simp [Forest.heads, hg]⟩

mutual
theorem paths_nodup : ∀ t : Tree, t.Good → t.paths.Nodup
  | .mk ls ns ks, h => by
    simp only [Tree.paths, List.nodup_cons]
    refine ⟨?_, forest_paths_nodup ks h.1 h.2⟩
    intro h0
    obtain ⟨g, p, e, _⟩ := head_of_paths ks _ h0
    cases e
theorem forest_paths_nodup : ∀ ks : Forest, ks.heads.Nodup → ks.Good → ks.paths.Nodup
  | .nil, _, _ => by simp [Forest.paths]
  | .cons k t r, hn, h => by
    simp only [Forest.heads, List.nodup_cons] at hn
    simp only [Forest.paths, List.nodup_append]
    refine ⟨?_, forest_paths_nodup r hn.2 h.2, ?_⟩
    · exact List.Pairwise.map _ (fun a b hab e => hab (List.cons.inj e).2) (paths_nodup t h.1)
    · intro a ha b hb e
      obtain ⟨p, _, e1⟩ := List.mem_map.1 ha
      obtain ⟨g, q, e2, hg⟩ := head_of_paths r b hb
      rw [← e1, e2] at e
      exact hn.1 ((List.cons.inj e).1 ▸ hg)
end

theorem forest_paths_update (g : Grp) (F : Tree → Tree) (P : Path → Prop) : ∀ (ks : Forest),
    (∀ q ∈ (F (ks.find g)).paths, q ∈ (ks.find g).paths ∧ ks.find g ≠ Tree.empty ∨ P q) →
    ∀ q ∈ (ks.update g F).paths, q ∈ ks.paths ∨ ∃ p, q = g :: p ∧ P p
  | .nil, hF, q, hq => by
    simp only [Forest.update, Forest.paths, List.append_nil, List.mem_map] at hq
    obtain ⟨p, hp, e⟩ := hq
    rcases hF p hp with ⟨_, h⟩ | h
    · exact absurd rfl h
    · exact .inr ⟨p, e.symm, h⟩
  | .cons k t r, hF, q, hq => by
    simp only [Forest.update] at hq
    by_cases e : k = g
    · subst e
      simp only [Forest.find, if_pos] at hF
      simp only [if_pos, Forest.paths, List.mem_append, List.mem_map] at hq
      rcases hq with ⟨p, hp, e⟩ | hq
      · rcases hF p hp with ⟨h, _⟩ | h
        · exact .inl (by simp only [Forest.paths, List.mem_append, List.mem_map]; exact .inl ⟨p, h, e⟩)
        · exact .inr ⟨p, e.symm, h⟩
      · exact .inl (by simp [Forest.paths, hq])
    · simp only [Forest.find, if_neg e] at hF
      simp only [if_neg e, Forest.paths, List.mem_append, List.mem_map] at hq
      rcases hq with ⟨p, hp, e⟩ | hq
      · exact .inl (by simp only [Forest.paths, List.mem_append, List.mem_map]; exact .inl ⟨p, hp, e⟩)
      · rcases forest_paths_update g F P r hF q hq with h | h
        · exact .inl (by simp [Forest.paths, h])
        · exact .inr h

/-- Only the groups around `p` are added. -/
theorem paths_update (f : List Line × List String → List Line × List String) : ∀ (p : Path) (t : Tree) (q : Path),
    q ∈ (t.update f p).paths → q ∈ t.paths ∨ q <+: p := by
  intro p
  induction p with
  | nil => intro t q h; cases t; exact .inl h
  | cons g p ih =>
    intro t q h
    cases t with | mk ls ns ks =>
    simp only [Tree.update, Tree.paths, List.mem_cons] at h
    rcases h with h | h
    · exact .inl (by simp [Tree.paths, h])
    · have hF : ∀ q ∈ (Tree.update f p (ks.find g)).paths, q ∈ (ks.find g).paths ∧ ks.find g ≠ Tree.empty ∨ q <+: p := by
        intro q hq
        rcases ih _ q hq with h | h
        · by_cases he : ks.find g = Tree.empty
          · rw [he] at h
            simp only [Tree.empty, Tree.paths, Forest.paths, List.mem_singleton] at h
            exact .inr (by rw [h]; exact List.nil_prefix)
          · exact .inl ⟨h, he⟩
        · exact .inr h
      rcases forest_paths_update g (Tree.update f p) (fun q => q <+: p) ks hF q h with h | ⟨r, e, hr⟩
      · exact .inl (by simp [Tree.paths, h])
      · exact .inr (by rw [e]; exact List.cons_prefix_cons.2 ⟨rfl, hr⟩)

/-! ## The text -/

theorem get_add (m : Result) (k : String) (ls : List Line) (k' : String) :
    Result.get (Result.add m k ls) k' = if k' = k then Result.get m k ++ ls else Result.get m k' := by
  induction m with
  | nil =>
    by_cases e : k' = k
    · simp [Result.add, Result.get, e]
    · simp [Result.add, Result.get, e, List.lookup, beq_false_of_ne e]
  | cons x m ih =>
    obtain ⟨a, l⟩ := x
    simp only [Result.add]
    by_cases ea : a = k
    · subst ea
      by_cases e : k' = a
      · simp [Result.get, e]
      · simp [Result.get, List.lookup, e, beq_false_of_ne e]
    · simp only [if_neg ea]
      by_cases e : k' = a
      · subst e
        simp [Result.get, ea]
      · have h1 : Result.get ((a, l) :: Result.add m k ls) k' = Result.get (Result.add m k ls) k' := by
          simp [Result.get, List.lookup, beq_false_of_ne e]
        have h2 : Result.get ((a, l) :: m) k' = Result.get m k' := by
          simp [Result.get, List.lookup, beq_false_of_ne e]
        have h3 : Result.get ((a, l) :: m) k = Result.get m k := by
          simp [Result.get, List.lookup, beq_false_of_ne (Ne.symm ea)]
        rw [h1, h2, h3, ih]

mutual
/-- The text of a group, when nothing is mixed up. -/
def Tree.render (cfg : Config) (g : Option Grp) (level : Nat) (global : List Line) : Tree → List Line
  | .mk ls _ ks => opening cfg level g ++ ks.render cfg (kidLevel level g) ++ ls ++ closing cfg global g
def Forest.render (cfg : Config) (level : Nat) : Forest → List Line
  | .nil => []
  | .cons g t r => t.render cfg (some g) level [] ++ r.render cfg level
end

mutual
/-- The keys written. -/
def Tree.keys (k : String) : Tree → List String
  | .mk _ _ ks => k :: ks.keys
def Forest.keys : Forest → List String
  | .nil => []
  | .cons g t r => t.keys g.name ++ r.keys
end

theorem mem_keys (k : String) (t : Tree) : k ∈ t.keys k := by cases t; simp [Tree.keys]

mutual
theorem write_render (cfg : Config) (hs : cfg.splitGroups = false) : ∀ (t : Tree) (g : Option Grp) (level : Nat)
    (global : List Line) (m : Result), (t.keys (keyOf g)).Nodup → (∀ k ∈ t.keys (keyOf g), Result.get m k = []) →
    Result.get (t.write cfg g level global m) (keyOf g) = t.render cfg g level global ∧
    ∀ k, k ∉ t.keys (keyOf g) → Result.get (t.write cfg g level global m) k = Result.get m k
  | .mk ls ns ks, g, level, global, m, hn, hm => by
    simp only [Tree.keys, List.nodup_cons] at hn
    simp only [Tree.keys, List.mem_cons] at hm
    simp only [Tree.write, hs, Bool.false_eq_true, if_false, Tree.render, Tree.keys, List.mem_cons, not_or]
    have hk := forest_write_render cfg hs ks (keyOf g) (kidLevel level g) (Result.add m (keyOf g) (opening cfg level g))
      (List.nodup_cons.2 hn) (by
        intro k hk
        have hne : k ≠ keyOf g := fun e => hn.1 (e ▸ hk)
        rw [get_add, if_neg hne]
        exact hm k (.inr hk))
    constructor
    · rw [get_add, if_pos rfl, hk.1, get_add, if_pos rfl, hm _ (.inl rfl)]
      simp only [List.nil_append, List.append_assoc]
    · intro k hk'
      rw [get_add, if_neg hk'.1, hk.2 k (by simp [hk'.1, hk'.2]), get_add, if_neg hk'.1]
theorem forest_write_render (cfg : Config) (hs : cfg.splitGroups = false) : ∀ (ks : Forest) (key : String) (level : Nat)
    (m : Result), (key :: ks.keys).Nodup → (∀ k ∈ ks.keys, Result.get m k = []) →
    Result.get (ks.write cfg (some key) level m) key = Result.get m key ++ ks.render cfg level ∧
    ∀ k, k ∉ key :: ks.keys → Result.get (ks.write cfg (some key) level m) k = Result.get m k
  | .nil, key, level, m, hn, hm => by simp [Forest.write, Forest.render]
  | .cons g t r, key, level, m, hn, hm => by
    simp only [Forest.keys, List.nodup_cons, List.mem_append, not_or, List.nodup_append] at hn
    obtain ⟨⟨n1, n2⟩, n3, n4, n5⟩ := hn
    simp only [Forest.keys, List.mem_append] at hm
    have h1 := write_render cfg hs t (some g) level [] m n3 (fun k hk => hm k (.inl hk))
    simp only [keyOf] at h1
    simp only [Forest.write, Forest.render, Forest.keys]
    have hkg : g.name ≠ key := fun e => n1 (e ▸ mem_keys g.name t)
    have h2 := forest_write_render cfg hs r key level
      (Result.add (t.write cfg (some g) level [] m) key (Result.get (t.write cfg (some g) level [] m) g.name))
      (List.nodup_cons.2 ⟨n2, n4⟩) (by
        intro k hk
        have hne : k ≠ key := fun e => n2 (e ▸ hk)
        rw [get_add, if_neg hne, h1.2 k (fun h => n5 k h k hk rfl)]
        exact hm k (.inr hk))
    constructor
    · rw [h2.1, get_add, if_pos rfl, h1.1, h1.2 key n1, List.append_assoc]
    · intro k hk
      simp only [List.mem_cons, List.mem_append, not_or] at hk
      rw [h2.2 k (by simp [hk.1, hk.2.2]), get_add, if_neg hk.1, h1.2 k hk.2.1]
end

theorem last_cons (g : Grp) (p : Path) (k : String) :
    (((g :: p).getLast?.map (·.name)).getD k) = ((p.getLast?.map (·.name)).getD g.name) := by
  cases p with
  | nil => rfl
  | cons h q => simp [List.getLast?_cons_cons]; cases hq : (h :: q).getLast? with
    | none => simp at hq
    | some x => simp

mutual
theorem keys_eq : ∀ (t : Tree) (k : String), t.keys k = t.paths.map (fun p => (p.getLast?.map (·.name)).getD k)
  | .mk ls ns ks, k => by simp [Tree.keys, Tree.paths, forest_keys_eq ks k]
theorem forest_keys_eq : ∀ (ks : Forest) (k : String), ks.keys = ks.paths.map (fun p => (p.getLast?.map (·.name)).getD k)
  | .nil, _ => rfl
  | .cons g t r, k => by
    simp only [Forest.keys, Forest.paths, List.map_append, List.map_map, keys_eq t g.name, forest_keys_eq r k]
    congr 1
    apply List.map_congr_left
    intro p _
    exact (last_cons g p k).symm
end

/-! ## Reading the text -/

theorem located_plain (ls : List Line) (h : ∀ l ∈ ls, l.plain = true) (st : List (Nat × String)) (rest : List Line) :
    located st (ls ++ rest) = ls.map ((st, ·)) ++ located st rest := by
  induction ls with
  | nil => rfl
  | cons l ls ih =>
    have hl := h l (by simp)
    have ih := ih (fun x hx => h x (by simp [hx]))
    cases l <;> simp_all [located, Line.plain]

theorem balance_plain (ls : List Line) (h : ∀ l ∈ ls, l.plain = true) (d : Nat) (rest : List Line) :
    balance (ls ++ rest) d = balance rest d := by
  induction ls with
  | nil => rfl
  | cons l ls ih =>
    have hl := h l (by simp)
    have ih := ih (fun x hx => h x (by simp [hx]))
    cases l <;> simp_all [balance, Line.plain]

/-- Nested clusters. -/
def under (cfg : Config) (st : List (Nat × String)) (p : Path) : List (Nat × String) :=
  if cfg.withGroups then st ++ p.map (fun g => (g.id, g.name)) else st

theorem under_cons (cfg : Config) (st : List (Nat × String)) (g : Grp) (p : Path) :
    under cfg st (g :: p) = under cfg (under cfg st [g]) p := by
  unfold under
  split <;> simp

mutual
theorem located_render (cfg : Config) : ∀ (t : Tree), (∀ x ∈ t.content, x.2.plain = true) → ∀ (g : Grp) (level : Nat)
    (st : List (Nat × String)) (rest : List Line),
    located st (t.render cfg (some g) level [] ++ rest) =
      t.content.map (fun x => (under cfg st (g :: x.1), x.2)) ++ located st rest
  | .mk ls ns ks, h, g, level, st, rest => by
    have hk : ∀ x ∈ ks.content, x.2.plain = true := fun x hx => h x (by simp [Tree.content, hx])
    have hl : ∀ l ∈ ls, l.plain = true := fun l hl => h ([], l) (by simp [Tree.content, hl])
    have key : ∀ rest, located (under cfg st [g]) ((ks.render cfg (level + 1) ++ ls) ++ rest) =
        (Tree.mk ls ns ks).content.map (fun x => (under cfg st (g :: x.1), x.2)) ++ located (under cfg st [g]) rest := by
      intro rest
      rw [List.append_assoc, located_render_forest cfg ks hk, located_plain ls hl]
      simp only [Tree.content, List.map_append, List.map_map, List.append_assoc]
      congr 1
      apply List.map_congr_left
      intro x _
      rw [under_cons cfg st g x.1]
    simp only [Tree.render, opening, closing, kidLevel]
    by_cases hw : cfg.withGroups = true
    · simp only [hw, if_true]
      have e : under cfg st [g] = st ++ [(g.id, g.name)] := by simp [under, hw]
      simp only [List.append_assoc, List.cons_append, List.nil_append, located]
      rw [← e, ← List.append_assoc, key]
      simp only [located, e, List.dropLast_concat]
    · simp only [Bool.not_eq_true] at hw
      simp only [hw, Bool.false_eq_true, if_false, List.nil_append, List.append_nil]
      have e : under cfg st [g] = st := by simp [under, hw]
      have := key rest
      rw [e] at this
      exact this
theorem located_render_forest (cfg : Config) : ∀ (ks : Forest), (∀ x ∈ ks.content, x.2.plain = true) → ∀ (level : Nat)
    (st : List (Nat × String)) (rest : List Line),
    located st (ks.render cfg level ++ rest) = ks.content.map (fun x => (under cfg st x.1, x.2)) ++ located st rest
  | .nil, _, _, _, _ => rfl
  | .cons g t r, h, level, st, rest => by
    have ht : ∀ x ∈ t.content, x.2.plain = true := fun x hx => by
      exact h (g :: x.1, x.2) (by simp only [Forest.content, List.mem_append, List.mem_map]; exact .inl ⟨x, hx, rfl⟩)
    have hr : ∀ x ∈ r.content, x.2.plain = true := fun x hx => h x (by simp [Forest.content, hx])
    simp only [Forest.render, List.append_assoc, Forest.content, List.map_append, List.map_map]
    rw [located_render cfg t ht, located_render_forest cfg r hr]
    rfl
end

mutual
theorem balance_render (cfg : Config) : ∀ (t : Tree), (∀ x ∈ t.content, x.2.plain = true) → ∀ (g : Grp) (level : Nat)
    (d : Nat) (rest : List Line), balance (t.render cfg (some g) level [] ++ rest) d = balance rest d
  | .mk ls ns ks, h, g, level, d, rest => by
    have hk : ∀ x ∈ ks.content, x.2.plain = true := fun x hx => h x (by simp [Tree.content, hx])
    have hl : ∀ l ∈ ls, l.plain = true := fun l hl => h ([], l) (by simp [Tree.content, hl])
    simp only [Tree.render, opening, closing, kidLevel]
    by_cases hw : cfg.withGroups = true
    · simp only [hw, if_true, List.append_assoc, List.cons_append, List.nil_append, balance]
      rw [balance_render_forest cfg ks hk, balance_plain ls hl]
      simp [balance]
    · simp only [Bool.not_eq_true] at hw
      simp only [hw, Bool.false_eq_true, if_false, List.nil_append, List.append_nil, List.append_assoc]
      rw [balance_render_forest cfg ks hk, balance_plain ls hl]
theorem balance_render_forest (cfg : Config) : ∀ (ks : Forest), (∀ x ∈ ks.content, x.2.plain = true) → ∀ (level : Nat)
    (d : Nat) (rest : List Line), balance (ks.render cfg level ++ rest) d = balance rest d
  | .nil, _, _, _, _ => rfl
  | .cons g t r, h, level, d, rest => by
    have ht : ∀ x ∈ t.content, x.2.plain = true := fun x hx => by
      exact h (g :: x.1, x.2) (by simp only [Forest.content, List.mem_append, List.mem_map]; exact .inl ⟨x, hx, rfl⟩)
    have hr : ∀ x ∈ r.content, x.2.plain = true := fun x hx => h x (by simp [Forest.content, hx])
    simp only [Forest.render, List.append_assoc]
    rw [balance_render cfg t ht, balance_render_forest cfg r hr]
end

/-- The whole text. -/
theorem root_text (cfg : Config) (t : Tree) (global : List Line) (h : ∀ x ∈ t.content, x.2.plain = true)
    (hg : ∀ l ∈ global, l.plain = true) :
    WellFormed (t.render cfg none 0 global) ∧
    located [] (t.render cfg none 0 global) = t.content.map (fun x => (place cfg x.1, x.2)) ++ global.map (([], ·)) := by
  cases t with | mk ls ns ks =>
  have hk : ∀ x ∈ ks.content, x.2.plain = true := fun x hx => h x (by simp [Tree.content, hx])
  have hl : ∀ l ∈ ls, l.plain = true := fun l hl => h ([], l) (by simp [Tree.content, hl])
  have hpl : ∀ p, under cfg [] p = place cfg p := fun p => by simp [under, place]
  simp only [Tree.render, opening, closing, kidLevel]
  constructor
  · refine ⟨none, ks.render cfg 0 ++ ls ++ global, by simp, ?_⟩
    rw [List.append_assoc, balance_render_forest cfg ks hk, balance_plain ls hl]
    have := balance_plain global hg 0 []
    rw [List.append_nil] at this
    rw [this]; rfl
  · simp only [List.append_assoc, List.cons_append, List.nil_append, located]
    rw [located_render_forest cfg ks hk, located_plain ls hl, located_plain global hg]
    simp only [located, List.append_nil, Tree.content, List.map_append, List.map_map, List.append_assoc]
    simp only [hpl]
    congr 2
    apply List.map_congr_left
    intro x _
    simp only [Function.comp_def]
    unfold place
    split <;> rfl

theorem shades_plain (ls : List Line) (h : ∀ l ∈ ls, l.plain = true) (d : Nat) (rest : List Line) :
    shades d (ls ++ rest) = shades d rest := by
  induction ls with
  | nil => rfl
  | cons l ls ih =>
    have hl := h l (by simp)
    have ih := ih (fun x hx => h x (by simp [hx]))
    cases l <;> simp_all [shades, Line.plain]

mutual
theorem shades_render (cfg : Config) (P : Nat × Option Nat → Prop)
    (hP : ∀ d, P (d, if cfg.withColours then some (min d 7) else none)) : ∀ (t : Tree), (∀ x ∈ t.content, x.2.plain = true) →
    ∀ (g : Grp) (level d : Nat), (cfg.withGroups = true → d = level) → ∀ (rest : List Line), (∀ x ∈ shades d rest, P x) →
    ∀ x ∈ shades d (t.render cfg (some g) level [] ++ rest), P x
  | .mk ls ns ks, h, g, level, d, hd, rest, hr => by
    have hk : ∀ x ∈ ks.content, x.2.plain = true := fun x hx => h x (by simp [Tree.content, hx])
    have hl : ∀ l ∈ ls, l.plain = true := fun l hl => h ([], l) (by simp [Tree.content, hl])
    simp only [Tree.render, opening, closing, kidLevel]
    by_cases hw : cfg.withGroups = true
    · have hd := hd hw
      subst hd
      simp only [hw, if_true, List.append_assoc, List.cons_append, List.nil_append, shades]
      intro x hx
      rcases List.mem_cons.1 hx with e | hx
      · subst e
        exact hP d
      · refine shades_render_forest cfg P hP ks hk (d + 1) (d + 1) (fun _ => rfl) _ ?_ x hx
        rw [shades_plain ls hl]
        exact hr
    · simp only [Bool.not_eq_true] at hw
      simp only [hw, Bool.false_eq_true, if_false, List.nil_append, List.append_nil, List.append_assoc]
      refine shades_render_forest cfg P hP ks hk (level + 1) d (fun e => by rw [hw] at e; cases e) _ ?_
      rw [shades_plain ls hl]
      exact hr
theorem shades_render_forest (cfg : Config) (P : Nat × Option Nat → Prop)
    (hP : ∀ d, P (d, if cfg.withColours then some (min d 7) else none)) : ∀ (ks : Forest), (∀ x ∈ ks.content, x.2.plain = true) →
    ∀ (level d : Nat), (cfg.withGroups = true → d = level) → ∀ (rest : List Line), (∀ x ∈ shades d rest, P x) →
    ∀ x ∈ shades d (ks.render cfg level ++ rest), P x
  | .nil, _, _, _, _, _, hr => hr
  | .cons g t r, h, level, d, hd, rest, hr => by
    have ht : ∀ x ∈ t.content, x.2.plain = true := fun x hx => by
      exact h (g :: x.1, x.2) (by simp only [Forest.content, List.mem_append, List.mem_map]; exact .inl ⟨x, hx, rfl⟩)
    have hr' : ∀ x ∈ r.content, x.2.plain = true := fun x hx => h x (by simp [Forest.content, hx])
    simp only [Forest.render, List.append_assoc]
    exact shades_render cfg P hP t ht g level d hd _ (shades_render_forest cfg P hP r hr' level d hd rest hr)
end

/-- The shades of the whole text. -/
theorem root_shades (cfg : Config) (t : Tree) (global : List Line) (h : ∀ x ∈ t.content, x.2.plain = true)
    (hg : ∀ l ∈ global, l.plain = true) :
    ∀ x ∈ shades 0 (t.render cfg none 0 global), x.2 = if cfg.withColours then some (min x.1 7) else none := by
  cases t with | mk ls ns ks =>
  have hk : ∀ x ∈ ks.content, x.2.plain = true := fun x hx => h x (by simp [Tree.content, hx])
  have hl : ∀ l ∈ ls, l.plain = true := fun l hl => h ([], l) (by simp [Tree.content, hl])
  simp only [Tree.render, opening, closing, kidLevel, List.append_assoc, List.cons_append, List.nil_append, shades]
  refine shades_render_forest cfg _ (fun d => rfl) ks hk 0 0 (fun _ => rfl) _ ?_
  rw [shades_plain ls hl, shades_plain global hg]
  simp [shades]

end Verif.Dot
