import Verif.Lemmas.DotInv
import Verif.Props.GraphBuild
/-! C80: the export of a graph as DOT text shows each pass and each transition once. -/
namespace Verif.Dot

/-! ## The visit -/

/-- Nodes not visited yet. -/
def left (U vis : List Nat) : Nat := (U.filter (fun x => x ∉ vis)).length

theorem left_append {U vis : List Nat} (new : List Nat) : left U (new ++ vis) ≤ left U vis := by
  unfold left
  induction U with
  | nil => simp
  | cons a U ih =>
    simp only [List.filter_cons, List.mem_append, not_or, decide_eq_true_eq] at ih ⊢
    by_cases h1 : a ∈ new <;> by_cases h2 : a ∈ vis <;> simp [h1, h2] at ih ⊢ <;> omega

theorem left_cons {U vis : List Nat} {n : Nat} (hn : n ∈ U) (hv : n ∉ vis) : left U (n :: vis) < left U vis := by
  unfold left
  induction U with
  | nil => cases hn
  | cons a U ih =>
    have mono : (U.filter (fun x => x ∉ n :: vis)).length ≤ (U.filter (fun x => x ∉ vis)).length := left_append [n]
    by_cases ha : a = n
    · subst ha
      simp only [List.filter_cons, List.mem_cons, true_or, not_true_eq_false, decide_false, Bool.false_eq_true, if_false, hv,
        not_false_eq_true, decide_true, if_true, List.length_cons]
      simp only [List.mem_cons] at mono
      omega
    · have hn' : n ∈ U := by
        rcases List.mem_cons.1 hn with h | h
        · exact absurd h.symm ha
        · exact h
      have := ih hn'
      simp only [List.filter_cons]
      by_cases h2 : a ∈ vis
      · simpa [ha, h2] using this
      · simp only [List.mem_cons, ha, h2, or_self, not_false_eq_true, decide_true, if_true, List.length_cons]
        simp only [List.mem_cons] at this
        omega

/-- What a visit does: new nodes are visited, closed under successors, and their edges are printed. -/
structure Visited (next : Nat → List Nat) (U vis new : List Nat) (r : List Nat × List (Nat × Nat)) (pre : List (Nat × Nat)) : Prop where
  eq : r.1 = new ++ vis
  fresh : new.Nodup ∧ ∀ x ∈ new, x ∉ vis
  within : ∀ x ∈ new, x ∈ U
  closed : ∀ x ∈ new, ∀ y ∈ next x, y ∈ new ++ vis
  trace : r.2.Perm (pre ++ new.flatMap fun x => (next x).map ((x, ·)))

theorem visitNext_spec (next : Nat → List Nat) (U : List Nat) (sub : Nat → List Nat → List Nat × List (Nat × Nat)) (fuel : Nat)
    (hsub : ∀ m vis, m ∈ U → m ∉ vis → left U vis ≤ fuel →
      ∃ new, Visited next U vis new (sub m vis) [] ∧ m ∈ new ∧ ∀ x ∈ new, x = m ∨ ∃ y ∈ U, x ∈ next y) (n : Nat) (hn : n ∈ U) :
    ∀ (ms vis : List Nat), (∀ m ∈ ms, m ∈ U ∧ m ∈ next n) → left U vis ≤ fuel →
    ∃ new, Visited next U vis new (visitNext sub n ms vis) (ms.map ((n, ·))) ∧ (∀ m ∈ ms, m ∈ new ++ vis) ∧
      ∀ x ∈ new, ∃ y ∈ U, x ∈ next y := by
  intro ms
  induction ms with
  | nil => intro vis _ _; exact ⟨[], ⟨by simp [visitNext], by simp, by simp, by simp, by simp [visitNext]⟩, by simp, by simp⟩
  | cons m ms ih =>
    intro vis hm hl
    by_cases hv : m ∈ vis
    · obtain ⟨new, h, h1, h2⟩ := ih vis (fun x hx => hm x (by simp [hx])) hl
      refine ⟨new, ⟨by simp [visitNext, hv, h.eq], h.fresh, h.within, h.closed, ?_⟩, ?_, h2⟩
      · simp only [visitNext, hv, if_true, List.append_nil, List.map_cons, List.cons_append, List.nil_append]
        exact h.trace.cons _
      · intro x hx
        rcases List.mem_cons.1 hx with e | hx
        · rw [e]; simp [hv]
        · exact h1 x hx
    · obtain ⟨new, h, h1, h2⟩ := hsub m vis (hm m (by simp)).1 hv hl
      obtain ⟨new', h', h1', h2'⟩ := ih (new ++ vis) (fun x hx => hm x (by simp [hx])) (Nat.le_trans (left_append new) hl)
      refine ⟨new' ++ new, ⟨?_, ⟨?_, ?_⟩, ?_, ?_, ?_⟩, ?_, ?_⟩
      · simp only [visitNext, hv, if_false, h.eq, h'.eq, List.append_assoc]
      · rw [List.nodup_append]
        exact ⟨h'.fresh.1, h.fresh.1, fun a ha b hb e => h'.fresh.2 a ha (by simp [e, hb])⟩
      · intro x hx
        rcases List.mem_append.1 hx with hx | hx
        · exact fun hxv => h'.fresh.2 x hx (by simp [hxv])
        · exact h.fresh.2 x hx
      · intro x hx
        rcases List.mem_append.1 hx with hx | hx
        · exact h'.within x hx
        · exact h.within x hx
      · intro x hx y hy
        rw [List.append_assoc]
        rcases List.mem_append.1 hx with hx | hx
        · exact h'.closed x hx y hy
        · exact List.mem_append.2 (.inr (h.closed x hx y hy))
      · simp only [visitNext, hv, if_false, h.eq, List.map_cons, List.cons_append, List.flatMap_append]
        refine List.Perm.cons _ ?_
        refine (List.Perm.append h.trace h'.trace).trans ?_
        rw [List.perm_iff_count]
        intro x
        simp only [List.count_append, List.nil_append]
        omega
      · intro x hx
        rw [List.append_assoc]
        rcases List.mem_cons.1 hx with e | hx
        · rw [e]; simp [h1]
        · exact h1' x hx
      · intro x hx
        rcases List.mem_append.1 hx with hx | hx
        · exact h2' x hx
        · rcases h2 x hx with e | h
          · exact ⟨n, hn, e ▸ (hm m (by simp)).2⟩
          · exact h

theorem visit_spec (next : Nat → List Nat) (U : List Nat) (hU : ∀ a ∈ U, ∀ b ∈ next a, b ∈ U) :
    ∀ (fuel n : Nat) (vis : List Nat), n ∈ U → n ∉ vis → left U vis ≤ fuel →
    ∃ new, Visited next U vis new (visit next fuel n vis) [] ∧ n ∈ new ∧ ∀ x ∈ new, x = n ∨ ∃ y ∈ U, x ∈ next y := by
  intro fuel
  induction fuel with
  | zero =>
    intro n vis hn hv hl
    have := left_cons hn hv
    omega
  | succ fuel ih =>
    intro n vis hn hv hl
    have hlt := left_cons hn hv
    obtain ⟨new, h, h1, h2⟩ := visitNext_spec next U (visit next fuel) fuel ih n hn (next n) (n :: vis)
      (fun m hm => ⟨hU n hn m hm, hm⟩) (by omega)
    refine ⟨new ++ [n], ⟨?_, ?_, ?_, ?_, ?_⟩, by simp, ?_⟩
    · rw [visit, h.eq]; simp
    · refine ⟨?_, ?_⟩
      · rw [List.nodup_append]
        refine ⟨h.fresh.1, by simp, ?_⟩
        intro a ha b hb e
        rw [List.mem_singleton.1 hb] at e
        exact h.fresh.2 a ha (by simp [e])
      · intro x hx
        rcases List.mem_append.1 hx with hx | hx
        · exact fun hxv => h.fresh.2 x hx (by simp [hxv])
        · rw [List.mem_singleton.1 hx]; exact hv
    · intro x hx
      rcases List.mem_append.1 hx with hx | hx
      · exact h.within x hx
      · rw [List.mem_singleton.1 hx]; exact hn
    · intro x hx y hy
      rw [List.append_assoc]
      rcases List.mem_append.1 hx with hx | hx
      · exact h.closed x hx y hy
      · rw [List.mem_singleton.1 hx] at hy
        exact h1 y hy
    · rw [visit]
      refine h.trace.trans ?_
      rw [List.flatMap_append]
      simp only [List.flatMap_cons, List.flatMap_nil, List.append_nil, List.nil_append]
      exact List.perm_append_comm
    · intro x hx
      rcases List.mem_append.1 hx with hx | hx
      · exact .inr (h2 x hx)
      · exact .inl (List.mem_singleton.1 hx)

theorem visitRoot_spec (next : Nat → List Nat) (U : List Nat) (hU : ∀ a ∈ U, ∀ b ∈ next a, b ∈ U) (fuel : Nat) :
    ∀ (ms vis : List Nat), ms.Nodup → (∀ m ∈ ms, m ∈ U ∧ m ∉ vis ∧ ∀ a ∈ U, m ∉ next a) → left U vis ≤ fuel →
    ∃ new, Visited next U vis new (visitRoot next fuel ms vis) [] ∧ ∀ m ∈ ms, m ∈ new := by
  intro ms
  induction ms with
  | nil => intro vis _ _ _; exact ⟨[], ⟨by simp [visitRoot], by simp, by simp, by simp, by simp [visitRoot]⟩, by simp⟩
  | cons m ms ih =>
    intro vis hn hm hl
    rw [List.nodup_cons] at hn
    obtain ⟨m1, m2, m3⟩ := hm m (by simp)
    obtain ⟨new, h, h1, h2⟩ := visit_spec next U hU fuel m vis m1 m2 hl
    obtain ⟨new', h', h1'⟩ := ih (new ++ vis) hn.2 (by
      intro x hx
      obtain ⟨x1, x2, x3⟩ := hm x (by simp [hx])
      refine ⟨x1, ?_, x3⟩
      intro hxv
      rcases List.mem_append.1 hxv with hxn | hxv
      · rcases h2 x hxn with e | ⟨y, hy, hxy⟩
        · exact hn.1 (e ▸ hx)
        · exact x3 y hy hxy
      · exact x2 hxv) (Nat.le_trans (left_append new) hl)
    refine ⟨new' ++ new, ⟨?_, ⟨?_, ?_⟩, ?_, ?_, ?_⟩, ?_⟩
    · simp only [visitRoot, h.eq, h'.eq, List.append_assoc]
    · rw [List.nodup_append]
      exact ⟨h'.fresh.1, h.fresh.1, fun a ha b hb e => h'.fresh.2 a ha (by simp [e, hb])⟩
    · intro x hx
      rcases List.mem_append.1 hx with hx | hx
      · exact fun hxv => h'.fresh.2 x hx (by simp [hxv])
      · exact h.fresh.2 x hx
    · intro x hx
      rcases List.mem_append.1 hx with hx | hx
      · exact h'.within x hx
      · exact h.within x hx
    · intro x hx y hy
      rw [List.append_assoc]
      rcases List.mem_append.1 hx with hx | hx
      · exact h'.closed x hx y hy
      · exact List.mem_append.2 (.inr (h.closed x hx y hy))
    · simp only [visitRoot, h.eq, List.flatMap_append]
      refine (List.Perm.append h.trace h'.trace).trans ?_
      rw [List.perm_iff_count]
      intro x
      simp only [List.count_append, List.nil_append]
      omega
    · intro x hx
      rcases List.mem_cons.1 hx with e | hx
      · rw [e]; simp [h1]
      · simp [h1' x hx]

/-- Every edge is printed once. -/
theorem edges_printed_once {G : Graph} {U : List Nat} (h : Nodes G U) {fuel : Nat} (hf : U.length ≤ fuel) :
    (visitRoot G.next fuel (G.next 0) []).2.Perm (U.flatMap fun a => (G.next a).map ((a, ·))) := by
  have hl : left U [] ≤ fuel := Nat.le_trans (List.length_filter_le _ _) hf
  obtain ⟨new, hv, hr⟩ := visitRoot_spec G.next U (fun a ha => h.closed a (.inr ha)) fuel (G.next 0) [] h.first.1
    (fun m hm => ⟨h.closed 0 (.inl rfl) m hm, by simp, h.first.2 m hm⟩) hl
  have hall : ∀ b, Reach G.next b → b ∈ new := by
    intro b hb
    induction hb with
    | root hb => exact hr _ hb
    | step _ hab ih => simpa using hv.closed _ ih _ hab
  have hp : new.Perm U := (List.perm_ext_iff_of_nodup hv.fresh.1 h.nodup).2 (fun x => ⟨hv.within x, fun hx => hall x (h.reached x hx)⟩)
  refine hv.trace.trans ?_
  rw [List.nil_append]
  exact hp.flatMap_right _

/-! ## What is printed -/

theorem common_left : ∀ p q : Path, common p q <+: p
  | [], q => by simp [common]
  | _ :: _, [] => by simp [common]
  | g :: p, h :: q => by
    simp only [common]
    split
    · exact List.cons_prefix_cons.2 ⟨rfl, common_left p q⟩
    · exact List.nil_prefix

/-- The names written so far stay. -/
def Grows (t t' : Tree) : Prop := ∀ q x, x ∈ (t.cell q).2 → x ∈ (t'.cell q).2

theorem grows_node (cfg : Config) (p : Path) (s : String) (sh : Shape) (id : Option Nat) (c : Colour) (t : Tree) :
    Grows t (displayNode cfg p s sh id c t) := fun q x h => (displayNode_cell cfg p s sh id c t q x).2 (.inl h)

theorem grows_edge (cfg : Config) (p : Path) (a b l : String) (c : Colour) (t : Tree) : Grows t (displayEdge cfg p a b l c t) :=
  fun q x h => by rw [displayEdge_cell]; exact h

theorem Grows.trans {t t' t'' : Tree} (h : Grows t t') (h' : Grows t' t'') : Grows t t'' := fun q x hx => h' q x (h q x hx)

theorem printTransition_inv {is line E D t} {cfg : Config} (h : Inv is line E D t []) {p : Path}
    (hp : p = [] ∨ ∃ i ∈ is, p <+: i.group) (hb : ∀ i ∈ is, ∀ s, i.name ≠ "Transition to\\n" ++ s) (src dst : String) (c : Colour) (x : Tr) :
    let t' := printTransition cfg p src dst c t x
    Inv is line (E ++ (twoEdges cfg c src (boxName x) dst x.data).map ((p, ·))) D t' [] ∧ Grows t t' ∧ boxName x ∈ (t'.cell p).2 := by
  intro t'
  have h1 := h.box (cfg := cfg) hp (s := boxName x) (fun i hi => hb i hi x.input) c
  have h2 := h1.edge (cfg := cfg) hp src (boxName x) x.data c
  have h3 := h2.edge (cfg := cfg) hp (boxName x) dst x.data c
  refine ⟨?_, ((grows_node _ _ _ _ _ _ _).trans (grows_edge _ _ _ _ _ _ _)).trans (grows_edge _ _ _ _ _ _ _), ?_⟩
  · rw [List.append_assoc] at h3
    exact h3
  · refine grows_edge _ _ _ _ _ _ _ _ _ (grows_edge _ _ _ _ _ _ _ _ _ ((displayNode_cell _ _ _ _ _ _ _ _ _).2 (.inr ⟨rfl, rfl⟩)))

theorem printTransitions_inv {is line D} {cfg : Config} {p : Path}
    (hp : p = [] ∨ ∃ i ∈ is, p <+: i.group) (hb : ∀ i ∈ is, ∀ s, i.name ≠ "Transition to\\n" ++ s) (src dst : String) (c : Colour) :
    ∀ (xs : List Tr) {E t}, Inv is line E D t [] →
    let t' := xs.foldl (printTransition cfg p src dst c) t
    Inv is line (E ++ (xs.flatMap fun x => twoEdges cfg c src (boxName x) dst x.data).map ((p, ·))) D t' [] ∧ Grows t t' ∧
      ∀ x ∈ xs, boxName x ∈ (t'.cell p).2 := by
  intro xs
  induction xs with
  | nil => intro E t h; exact ⟨by simpa using h, fun _ _ h => h, by simp⟩
  | cons x xs ih =>
    intro E t h
    obtain ⟨h1, h2, h3⟩ := printTransition_inv (cfg := cfg) h hp hb src dst c x
    obtain ⟨h4, h5, h6⟩ := ih h1
    refine ⟨?_, h2.trans h5, ?_⟩
    · simp only [List.flatMap_cons, List.map_append]
      rw [List.append_assoc] at h4
      exact h4
    · intro y hy
      rcases List.mem_cons.1 hy with e | hy
      · rw [e]; exact h5 _ _ h3
      · exact h6 y hy

theorem sortTr_perm (l : List Tr) : (sortTr l).Perm l := List.mergeSort_perm _ _

theorem printEdge_inv {is E D t} {cfg : Config} {G : Graph} (h : Inv is (passLine cfg) E D t []) (hP : PassNames is)
    (hb : ∀ i ∈ is, ∀ s, i.name ≠ "Transition to\\n" ++ s) (e : Nat × Nat) (h1 : G.info e.1 ∈ is) (h2 : G.info e.2 ∈ is) :
    let t' := printEdge cfg G t e
    let p := common (G.info e.1).group (G.info e.2).group
    ∃ D', Inv is (passLine cfg) (E ++ (edgeLines cfg G e.1 e.2).map ((p, ·))) D' t' [] ∧ Grows t t' ∧
      (∀ x, x ∈ D' ↔ x ∈ D ∨ x = G.info e.1 ∨ x = G.info e.2) ∧
      ∀ x ∈ G.views e.1 e.2 ++ G.buffers e.1 e.2, boxName x ∈ (t'.cell p).2 := by
  intro t' p
  have hp : p = [] ∨ ∃ i ∈ is, p <+: i.group := .inr ⟨_, h1, common_left _ _⟩
  obtain ⟨D1, i1, d1⟩ := h.pass (cfg := cfg) hP h1 (c := .pass) (id := if cfg.withIds then some (G.info e.1).id else none) rfl
  obtain ⟨D2, i2, d2⟩ := i1.pass (cfg := cfg) hP h2 (c := .pass) (id := if cfg.withIds then some (G.info e.2).id else none) rfl
  obtain ⟨i3, g3, n3⟩ := printTransitions_inv (cfg := cfg) hp hb (G.info e.1).name (G.info e.2).name .img (sortTr (G.views e.1 e.2)) i2
  obtain ⟨i4, g4, n4⟩ := printTransitions_inv (cfg := cfg) hp hb (G.info e.1).name (G.info e.2).name .buf (sortTr (G.buffers e.1 e.2)) i3
  refine ⟨D2, ?_, ?_, ?_, ?_⟩
  · refine Inv.congr i4 ?_
    rw [List.append_assoc]
    refine List.Perm.append_left _ ?_
    rw [edgeLines, List.map_append]
    exact List.Perm.append (((sortTr_perm _).flatMap_right _).map _) (((sortTr_perm _).flatMap_right _).map _)
  · exact ((grows_node _ _ _ _ _ _ _).trans (grows_node _ _ _ _ _ _ _)).trans (g3.trans g4)
  · intro x
    rw [d2, d1, or_assoc]
  · intro x hx
    rcases List.mem_append.1 hx with hx | hx
    · exact g4 _ _ (n3 x ((sortTr_perm _).mem_iff.2 hx))
    · exact n4 x ((sortTr_perm _).mem_iff.2 hx)

theorem printEdges_inv {is} {cfg : Config} {G : Graph} (hP : PassNames is)
    (hb : ∀ i ∈ is, ∀ s, i.name ≠ "Transition to\\n" ++ s) : ∀ (es : List (Nat × Nat)) {E D t}, Inv is (passLine cfg) E D t [] →
    (∀ e ∈ es, G.info e.1 ∈ is ∧ G.info e.2 ∈ is) →
    let t' := es.foldl (printEdge cfg G) t
    ∃ D', Inv is (passLine cfg)
        (E ++ es.flatMap fun e => (edgeLines cfg G e.1 e.2).map ((common (G.info e.1).group (G.info e.2).group, ·))) D' t' [] ∧
      Grows t t' ∧ (∀ x, x ∈ D' ↔ x ∈ D ∨ ∃ e ∈ es, x = G.info e.1 ∨ x = G.info e.2) ∧
      ∀ e ∈ es, ∀ x ∈ G.views e.1 e.2 ++ G.buffers e.1 e.2, boxName x ∈ (t'.cell (common (G.info e.1).group (G.info e.2).group)).2 := by
  intro es
  induction es with
  | nil => intro E D t h _; exact ⟨D, by simpa using h, fun _ _ h => h, by simp, by simp⟩
  | cons e es ih =>
    intro E D t h hes
    obtain ⟨e1, e2⟩ := hes e (by simp)
    obtain ⟨D1, i1, g1, d1, n1⟩ := printEdge_inv (G := G) h hP hb e e1 e2
    obtain ⟨D2, i2, g2, d2, n2⟩ := ih i1 (fun x hx => hes x (by simp [hx]))
    refine ⟨D2, ?_, g1.trans g2, ?_, ?_⟩
    · rw [List.append_assoc] at i2
      exact i2
    · intro x
      rw [d2, d1, or_assoc]
      refine or_congr Iff.rfl ?_
      simp
    · intro x hx
      rcases List.mem_cons.1 hx with ex | hx
      · rw [ex]; exact fun y hy => g2 _ _ (n1 y hy)
      · exact n2 x hx

/-! ## C80 -/

/-- The innermost group two passes are both in. -/
theorem common_spec (p q : Path) : common p q <+: p ∧ common p q <+: q ∧ ∀ r, r <+: p → r <+: q → r <+: common p q := by
  refine ⟨common_left p q, ?_, ?_⟩
  · induction p generalizing q with
    | nil => simp [common]
    | cons g p ih =>
      cases q with
      | nil => simp [common]
      | cons h q =>
        simp only [common]
        split
        · rename_i e; exact List.cons_prefix_cons.2 ⟨e, ih q⟩
        · exact List.nil_prefix
  · intro r
    induction r generalizing p q with
    | nil => intros; exact List.nil_prefix
    | cons x r ih =>
      intro hp hq
      cases p with
      | nil => simp at hp
      | cons g p =>
        cases q with
        | nil => simp at hq
        | cons h q =>
          obtain ⟨e1, hp'⟩ := List.cons_prefix_cons.1 hp
          obtain ⟨e2, hq'⟩ := List.cons_prefix_cons.1 hq
          subst e1 e2
          simp only [common, if_pos]
          exact List.cons_prefix_cons.2 ⟨rfl, ih p q hp' hq'⟩

theorem place_inj {cfg : Config} (hw : cfg.withGroups = true) {p q : Path} (h : place cfg p = place cfg q) : p = q := by
  simp only [place, hw, if_true] at h
  revert h
  induction p generalizing q with
  | nil => intro h; cases q with
    | nil => rfl
    | cons => simp at h
  | cons g p ih =>
    intro h
    cases q with
    | nil => simp at h
    | cons k q =>
      simp only [List.map_cons, List.cons.injEq, Prod.mk.injEq] at h
      rw [ih h.2]
      cases g; cases k
      simp only at h
      rw [h.1.1, h.1.2]

/-- Clusters and name of a node. -/
def declared : List (Nat × String) × Line → Option (List (Nat × String) × String)
  | (p, .node s _ _ _) => some (p, s)
  | _ => none

theorem declared_nodup {cfg : Config} (hw : cfg.withGroups = true) : ∀ l : List (Path × Line),
    (l.filterMap nodeKey).Nodup → ((l.map fun x => (place cfg x.1, x.2)).filterMap declared).Nodup := by
  intro l h
  have e : (l.map fun x => (place cfg x.1, x.2)).filterMap declared = (l.filterMap nodeKey).map fun x => (place cfg x.1, x.2) := by
    rw [List.filterMap_map, List.map_filterMap]
    congr 1
    funext x
    obtain ⟨p, l⟩ := x
    cases l <;> rfl
  rw [e]
  refine List.Pairwise.map _ ?_ h
  intro a b hab e
  refine hab ?_
  simp only [Prod.mk.injEq] at e
  exact Prod.ext (place_inj hw e.1) e.2

/-- What is displayed of a graph. -/
theorem passes_state (cfg : Config) (G : Graph) (U : List Nat) (h : Nodes G U)
    (hP : ∀ x ∈ U, ∀ y ∈ U, (G.info x).group = (G.info y).group → (G.info x).name = (G.info y).name → x = y)
    (hb : ∀ x ∈ U, ∀ s, (G.info x).name ≠ "Transition to\\n" ++ s) (fuel : Nat) (hf : U.length ≤ fuel) :
    let t := (visitRoot G.next fuel (G.next 0) []).2.foldl (printEdge cfg G) Tree.empty
    ∃ (D : List Info) (shown : List Nat), Inv (U.map G.info) (passLine cfg)
        (U.flatMap fun a => (G.next a).flatMap fun b => (edgeLines cfg G a b).map ((common (G.info a).group (G.info b).group, ·))) D t []
      ∧ shown.Nodup ∧ (∀ x, x ∈ shown ↔ Linked G U x) ∧ D.Perm (shown.map G.info)
      ∧ (∀ a ∈ U, ∀ b ∈ G.next a, ∀ x ∈ G.views a b ++ G.buffers a b,
          boxName x ∈ (t.cell (common (G.info a).group (G.info b).group)).2)
      ∧ ∀ i ∈ U.map G.info, ∀ s, i.name ≠ "Transition to\\n" ++ s := by
  intro t
  have hperm := edges_printed_once h hf
  generalize hes : (visitRoot G.next fuel (G.next 0) []).2 = es at hperm
  have hesU : ∀ e ∈ es, e.1 ∈ U ∧ e.2 ∈ G.next e.1 := by
    intro e he
    obtain ⟨a, ha, hab⟩ := List.mem_flatMap.1 (hperm.mem_iff.1 he)
    obtain ⟨b, hb, rfl⟩ := List.mem_map.1 hab
    exact ⟨ha, hb⟩
  have hPi : PassNames (U.map G.info) := by
    intro i hi j hj hg hn
    obtain ⟨x, hx, rfl⟩ := List.mem_map.1 hi
    obtain ⟨y, hy, rfl⟩ := List.mem_map.1 hj
    rw [hP x hx y hy hg hn]
  have hbi : ∀ i ∈ U.map G.info, ∀ s, i.name ≠ "Transition to\\n" ++ s := by
    intro i hi
    obtain ⟨x, hx, rfl⟩ := List.mem_map.1 hi
    exact hb x hx
  obtain ⟨D, hI, -, hD, hbox⟩ := printEdges_inv (cfg := cfg) (G := G) hPi hbi es (Inv.start (U.map G.info) (passLine cfg)) (by
    intro e he
    obtain ⟨h1, h2⟩ := hesU e he
    exact ⟨List.mem_map_of_mem h1, List.mem_map_of_mem (h.closed e.1 (.inr h1) e.2 h2)⟩)
  have et : es.foldl (printEdge cfg G) Tree.empty = t := by rw [← hes]
  rw [et] at hI hbox
  refine ⟨D, U.filter (fun x => decide (G.info x ∈ D)), hI.congr ?_, List.Pairwise.filter _ h.nodup, ?_, ?_, ?_, hbi⟩
  · rw [List.nil_append]
    refine (hperm.flatMap_right _).trans ?_
    rw [List.flatMap_assoc]
    simp only [List.flatMap_map]
    exact List.Perm.refl _
  · intro x
    simp only [List.mem_filter, decide_eq_true_eq]
    constructor
    · rintro ⟨hx, hxD⟩
      refine ⟨hx, ?_⟩
      have hinj : ∀ y ∈ U, G.info x = G.info y → x = y := fun y hy e => hP x hx y hy (by rw [e]) (by rw [e])
      rcases (hD _).1 hxD with h0 | ⟨e, he, he'⟩
      · cases h0
      · obtain ⟨e1, e2⟩ := hesU e he
        rcases he' with he' | he'
        · left
          rw [hinj _ e1 he']
          exact List.ne_nil_of_mem e2
        · right
          exact ⟨e.1, e1, by rw [hinj _ (h.closed e.1 (.inr e1) e.2 e2) he']; exact e2⟩
    · rintro ⟨hx, hl⟩
      refine ⟨hx, (hD _).2 (.inr ?_)⟩
      have hmem : ∀ a ∈ U, ∀ b ∈ G.next a, (a, b) ∈ es := fun a ha b hb' =>
        hperm.mem_iff.2 (List.mem_flatMap.2 ⟨a, ha, List.mem_map_of_mem hb'⟩)
      rcases hl with hl | ⟨a, ha, hax⟩
      · obtain ⟨b, hb'⟩ := List.exists_mem_of_ne_nil _ hl
        exact ⟨(x, b), hmem x hx b hb', .inl rfl⟩
      · exact ⟨(a, x), hmem a ha x hax, .inr rfl⟩
  · refine (List.perm_ext_iff_of_nodup hI.shown.1 ?_).2 ?_
    · have hinj : ∀ l : List Nat, (∀ x ∈ l, x ∈ U) → l.Nodup → (l.map G.info).Nodup := by
        intro l
        induction l with
        | nil => intro _ _; simp
        | cons a l ih =>
          intro hl hn
          rw [List.nodup_cons] at hn
          rw [List.map_cons, List.nodup_cons]
          refine ⟨?_, ih (fun x hx => hl x (by simp [hx])) hn.2⟩
          intro hm
          obtain ⟨b, hb', e⟩ := List.mem_map.1 hm
          exact hn.1 (hP b (hl b (by simp [hb'])) a (hl a (by simp)) (by rw [e]) (by rw [e]) ▸ hb')
      exact hinj _ (fun x hx => (List.mem_filter.1 hx).1) (List.Pairwise.filter _ h.nodup)
    · intro i
      simp only [List.mem_map, List.mem_filter, decide_eq_true_eq]
      constructor
      · intro hi
        obtain ⟨x, hx, e⟩ := List.mem_map.1 (hI.shown.2 i hi)
        exact ⟨x, ⟨hx, e ▸ hi⟩, e⟩
      · rintro ⟨x, ⟨_, hx⟩, e⟩
        exact e ▸ hx
  · intro a ha b hb' x hx
    exact hbox (a, b) (hperm.mem_iff.2 (List.mem_flatMap.2 ⟨a, ha, List.mem_map_of_mem hb'⟩)) x hx

/-- **C80** (partial: see the hypotheses): the text of `displayPasses` is one graph with balanced blocks. Its edges are, each once,
two for every transition of every edge of the graph, through a box, in the cluster of the innermost group both passes are in.
Its ellipses are, each once, the passes that have an edge, in the clusters of their groups. The boxes are declared where their edges
are; with groups, nothing is declared twice in a cluster. -/
theorem passes_exported_partial (cfg : Config) (hs : cfg.splitGroups = false) (G : Graph) (U : List Nat) (h : Nodes G U)
    (hG : GroupNames (U.map G.info))
    (hP : ∀ x ∈ U, ∀ y ∈ U, (G.info x).group = (G.info y).group → (G.info x).name = (G.info y).name → x = y)
    (hb : ∀ x ∈ U, ∀ s, (G.info x).name ≠ "Transition to\\n" ++ s) (fuel : Nat) (hf : U.length ≤ fuel) :
    let text := streamPasses cfg G fuel
    let at_ := fun a b => place cfg (common (G.info a).group (G.info b).group)
    WellFormed text
    ∧ ((located [] text).filter (·.2.isEdge)).Perm
        (U.flatMap fun a => (G.next a).flatMap fun b => (edgeLines cfg G a b).map ((at_ a b, ·)))
    ∧ (∃ shown : List Nat, shown.Nodup ∧ (∀ x, x ∈ shown ↔ Linked G U x) ∧
        ((located [] text).filter (·.2.isEllipse)).Perm (shown.map fun x => (place cfg (G.info x).group, passLine cfg (G.info x))))
    ∧ (∀ a ∈ U, ∀ b ∈ G.next a, ∀ x ∈ G.views a b ++ G.buffers a b, ∃ id c, (at_ a b, .node (boxName x) .box id c) ∈ located [] text)
    ∧ (cfg.withGroups = true → ((located [] text).filterMap declared).Nodup) := by
  intro text at_
  obtain ⟨D, shown, hI, hsn, hsl, hDs, hbox, hbi⟩ := passes_state cfg G U h hP hb fuel hf
  have ht := hI.text hG hs
  have etext : text = Result.get (((visitRoot G.next fuel (G.next 0) []).2.foldl (printEdge cfg G) Tree.empty).write cfg none 0 [] []) "" := by
    show streamPasses cfg G fuel = _
    simp only [streamPasses, displayPasses, hs, Bool.false_eq_true, if_false]
  rw [← etext] at ht
  obtain ⟨t1, t2, t3, t4⟩ := ht
  refine ⟨t1, t2.trans ?_, ⟨shown, hsn, hsl, t3.trans ?_⟩, ?_, ?_⟩
  · rw [List.map_flatMap]
    simp only [List.map_flatMap, List.map_map]
    exact List.Perm.refl _
  · have := hDs.map (fun i : Info => (place cfg i.group, passLine cfg i))
    rw [List.map_map] at this
    exact this
  · intro a ha b hb' x hx
    have hm := hbox a ha b hb' x hx
    rw [← hI.nodes] at hm
    obtain ⟨⟨p, l⟩, hl, e⟩ := List.mem_filterMap.1 hm
    cases l with
    | node s sh id c =>
      simp only [nodeKey, Option.some.injEq, Prod.mk.injEq] at e
      obtain ⟨e1, e2⟩ := e
      subst e1 e2
      cases sh with
      | box =>
        exact ⟨id, c, t4.mem_iff.2 (List.mem_map.2 ⟨_, hl, rfl⟩)⟩
      | ellipse =>
        exfalso
        have := hI.ellipses.mem_iff.1 (List.mem_filter.2 ⟨hl, rfl⟩)
        obtain ⟨i, hi, e⟩ := List.mem_map.1 this
        simp only [passLine, Prod.mk.injEq, Line.node.injEq] at e
        exact hbi i (hI.shown.2 i hi) x.input e.2.1
    | _ => simp [nodeKey] at e
  · intro hw
    refine ((t4.filterMap declared).nodup_iff).2 ?_
    exact declared_nodup hw _ hI.once

/-- C80, colours: a cluster has a shade if colours are asked for: that of the number of clusters it is in, of eight shades, the last
for any deeper one. -/
theorem passes_shaded_partial (cfg : Config) (hs : cfg.splitGroups = false) (G : Graph) (U : List Nat) (h : Nodes G U)
    (hG : GroupNames (U.map G.info))
    (hP : ∀ x ∈ U, ∀ y ∈ U, (G.info x).group = (G.info y).group → (G.info x).name = (G.info y).name → x = y)
    (hb : ∀ x ∈ U, ∀ s, (G.info x).name ≠ "Transition to\\n" ++ s) (fuel : Nat) (hf : U.length ≤ fuel) :
    ∀ x ∈ shades 0 (streamPasses cfg G fuel), x.2 = if cfg.withColours then some (min x.1 7) else none := by
  obtain ⟨D, shown, hI, -⟩ := passes_state cfg G U h hP hb fuel hf
  have := hI.shades hG hs
  simpa only [streamPasses, displayPasses, hs, Bool.false_eq_true, if_false] using this

/-- C80 is false of a pass without edge: if its name is no other's, no ellipse has it. -/
theorem lone_pass_not_exported (cfg : Config) (hs : cfg.splitGroups = false) (G : Graph) (U : List Nat) (h : Nodes G U)
    (hG : GroupNames (U.map G.info)) (hP : ∀ x ∈ U, ∀ y ∈ U, (G.info x).name = (G.info y).name → x = y)
    (hb : ∀ x ∈ U, ∀ s, (G.info x).name ≠ "Transition to\\n" ++ s) (fuel : Nat) (hf : U.length ≤ fuel)
    (n : Nat) (hn : n ∈ U) (hl : ¬ Linked G U n) :
    ∀ x ∈ located [] (streamPasses cfg G fuel), ∀ id c, x.2 ≠ .node (G.info n).name .ellipse id c := by
  intro x hx id c e
  obtain ⟨-, -, ⟨sh, -, h2, h3⟩, -⟩ := passes_exported_partial cfg hs G U h hG (fun a ha b hb' _ e => hP a ha b hb' e) hb fuel hf
  have hm := h3.mem_iff.1 (List.mem_filter.2 ⟨hx, by rw [e]; rfl⟩)
  obtain ⟨y, hy, e'⟩ := List.mem_map.1 hm
  have hy' := (h2 y).1 hy
  rw [← e'] at e
  simp only [passLine, Line.node.injEq] at e
  exact hl (hP y hy'.1 n hn e.1 ▸ hy')

/-- The graph of a compiled frame graph has the shape supposed. -/
theorem compiled_nodes (sources : View → List View) (H : Deps.Heap) (known : View → Prop) (h : Deps.WellFormed H known)
    (hcl : Deps.Closed H) (hac : Deps.Acyclic H) (hu : H.univ.Nodup) (info : Nat → Info) (att : Att.Attachment → String)
    (view : View → String) (buf : List Nat → String) :
    Nodes (ofCompiled info att view buf (Deps.compileGraph sources H H.univ)) H.univ := by
  obtain ⟨r1, -, r3, -⟩ := Deps.graph_rooted sources H known h hcl
  obtain ⟨-, d2, -⟩ := Deps.edge_depends sources H known h hcl
  refine ⟨hu, ?_, ⟨r3 0, ?_⟩, ?_⟩
  · intro a _ b hb
    by_cases h0 : a = 0
    · subst h0; exact ((r1 b).1 hb).1
    · exact (d2 a b h0 hb).2.1
  · intro b hb a ha hab
    exact ((r1 b).1 hb).2 a (h.nonnull a ha) hab
  · have key : ∀ a b, Deps.Reachable (Deps.compileGraph sources H H.univ) a b → a = 0 →
        b = 0 ∨ Reach (Deps.compileGraph sources H H.univ).next b := by
      intro a b hr
      induction hr with
      | here => exact fun e => .inl e
      | step _ hc ih =>
        intro e
        rcases ih e with h0 | h0
        · rw [h0] at hc; exact .inr (.root hc)
        · exact .inr (.step h0 hc)
    intro b hb
    exact (key 0 b (Deps.graph_connected sources H known h hcl hac b hb) rfl).resolve_left (h.nonnull b hb)

end Verif.Dot
