import Verif.Props.Dot
/-! C80: the transitions of a graph as DOT text. -/
namespace Verif.Dot

/-- An end outside of the graph, as if it were a pass. -/
def outside : Info := ⟨0, "ExternalSource", []⟩

/-- The line of an end. -/
def lineOf (cfg : Config) (i : Info) : Line := if i.group = [] then (endLine cfg none).2 else passLine cfg i

theorem outside_box (t : Tr) : "ExternalSource" ≠ tboxName t := by
  intro e
  have h : '\\' ∈ (tboxName t).toList := by simp [tboxName]
  rw [← e] at h
  exact absurd h (by decide)

theorem attach_inv {is E D t gl} {cfg : Config} (h : Inv is (lineOf cfg) E D t gl) (hP : PassNames is) (i : Option Info)
    (hi : i.getD outside ∈ is) (hg : ∀ j, i = some j → j.group ≠ []) :
    ∃ D', Inv is (lineOf cfg) E D' (displayAttachPass cfg t i) gl ∧ ∀ x, x ∈ D' ↔ x ∈ D ∨ x = i.getD outside := by
  cases i with
  | some i =>
    refine h.pass (cfg := cfg) hP hi (c := .pass) ?_
    exact if_neg (hg i rfl)
  | none =>
    refine h.pass (cfg := cfg) hP (i := outside) hi (c := .ext) ?_
    rfl

/-- The infos of a transition. -/
def both (x : ETr) : List Info := [x.src.getD outside, x.dst.getD outside]

theorem attaches_inv {is} {cfg : Config} (hP : PassNames is) : ∀ (xs : List ETr) {E D t gl}, Inv is (lineOf cfg) E D t gl →
    (∀ x ∈ xs, ∀ i ∈ both x, i ∈ is) → (∀ i ∈ ends xs, i.group ≠ []) →
    ∃ D', Inv is (lineOf cfg) E D' (xs.foldl (fun t x => displayAttachPass cfg (displayAttachPass cfg t x.src) x.dst) t) gl ∧
      ∀ i, i ∈ D' ↔ i ∈ D ∨ ∃ x ∈ xs, i ∈ both x := by
  intro xs
  induction xs with
  | nil => intro E D t gl h _ _; exact ⟨D, h, by simp⟩
  | cons x xs ih =>
    intro E D t gl h hi hg
    obtain ⟨D1, h1, d1⟩ := attach_inv h hP x.src (hi x (by simp) _ (by simp [both])) (fun j e => hg j (by simp [ends, e]))
    obtain ⟨D2, h2, d2⟩ := attach_inv h1 hP x.dst (hi x (by simp) _ (by simp [both])) (fun j e => hg j (by simp [ends, e]))
    obtain ⟨D3, h3, d3⟩ := ih h2 (fun y hy => hi y (by simp [hy])) (fun i hi' => hg i (by
      simp only [ends, List.flatMap_cons, List.mem_append] at hi' ⊢
      exact .inr hi'))
    refine ⟨D3, h3, ?_⟩
    intro i
    rw [d3, d2, d1]
    simp only [List.mem_cons, exists_eq_or_imp, both, List.mem_nil_iff, or_false, or_assoc]

theorem setNames_cell (ls : List Line) (ns ns' : List String) (ks : Forest) (q : Path) :
    (Tree.cell q (.mk ls ns' ks)) = if q = [] then (ls, ns') else Tree.cell q (.mk ls ns ks) := by
  cases q <;> simp [Tree.cell]

/-- Two edges in the global stream. -/
theorem Inv.globalEdges {is line E D t gl} (h : Inv is line E D t gl) (a b l a' b' l' : String) (c c' : Option Colour) :
    Inv is line (E ++ [([], .edge a b l c), ([], .edge a' b' l' c')]) D t (gl ++ [.edge a b l c, .edge a' b' l' c']) := by
  have step : ∀ {E gl} (a b l : String) (c : Option Colour), Inv is line E D t gl →
      Inv is line (E ++ [([], .edge a b l c)]) D t (gl ++ [.edge a b l c]) := by
    intro E gl a b l c h
    refine h.addEdge ?_ (fun _ => rfl) h.good h.paths
    simp [total]
  have := step a' b' l' c' (step a b l c h)
  simpa using this

theorem transition_inv {is line E D t gl} {cfg : Config} (h : Inv is line E D t gl) (c : Colour) (x : ETr)
    (hi : ∀ i ∈ both x, i ∈ is) (hb : ∀ i ∈ is, i.name ≠ tboxName x.tr) :
    let s := displayTransitionEdge cfg c (t, gl) x
    Inv is line (E ++ (twoEdges cfg c (srcName x.src) (tboxName x.tr) (dstName x.dst) x.tr.data).map ((x.group, ·))) D s.1 s.2 ∧
      Grows t s.1 ∧ tboxName x.tr ∈ (s.1.cell x.group).2 := by
  obtain ⟨src, dst, tr⟩ := x
  have global : ∀ (sn dn : String), ∀ ls ns ks, t = .mk ls ns ks →
      let new : List Line := if tboxName tr ∈ ns then [] else [.node (tboxName tr) .box none (shade cfg c)]
      let t' := Tree.mk ls (if tboxName tr ∈ ns then ns else tboxName tr :: ns) ks
      Inv is line (E ++ (twoEdges cfg c sn (tboxName tr) dn tr.data).map (([], ·))) D t'
        (gl ++ new ++ [.edge sn (tboxName tr) tr.data (shade cfg c), .edge (tboxName tr) dn tr.data (shade cfg c)]) ∧
      Grows t t' ∧ tboxName tr ∈ (t'.cell []).2 := by
    intro sn dn ls ns ks e
    subst e
    by_cases hm : tboxName tr ∈ ns
    · simp only [hm, if_true, List.append_nil]
      refine ⟨?_, fun _ _ h => h, hm⟩
      exact h.globalEdges _ _ _ _ _ _ _ _
    · simp only [hm, if_false]
      have hc : ∀ q x, x ∈ ((Tree.mk ls (tboxName tr :: ns) ks).cell q).2 ↔
          x ∈ ((Tree.mk ls ns ks).cell q).2 ∨ (q = [] ∧ x = tboxName tr) := by
        intro q x
        rw [setNames_cell ls ns]
        by_cases e : q = []
        · subst e; simp only [if_true, List.mem_cons, Tree.cell, true_and]; exact or_comm
        · simp [e]
      refine ⟨?_, fun q x hx => (hc q x).2 (.inl hx), by simp [Tree.cell]⟩
      have h1 : Inv is line E D (Tree.mk ls (tboxName tr :: ns) ks) (gl ++ [.node (tboxName tr) .box none (shade cfg c)]) := by
        refine h.addNode (p := []) (s := tboxName tr) (sh := .box) (id := none) (c := shade cfg c) hm ?_ hc ?_ ?_ h.shown ?_ ?_
        · simp [total, Tree.content]
        · exact h.good
        · exact h.paths
        · simpa [Line.isEllipse] using h.ellipses
        · intro i hi'
          rw [h.names i hi']
          exact ⟨fun e => e.elim _root_.id (fun e => absurd e.2 (hb i hi')), .inl⟩
      exact h1.globalEdges _ _ _ _ _ _ _ _
  cases src with
  | some a =>
    cases dst with
    | some b =>
      have hp : common a.group b.group = [] ∨ ∃ i ∈ is, common a.group b.group <+: i.group :=
        .inr ⟨a, hi a (by simp [both]), common_left _ _⟩
      have h1 := h.box (cfg := cfg) hp hb c
      have h2 := h1.edge (cfg := cfg) hp a.name (tboxName tr) tr.data c
      have h3 := h2.edge (cfg := cfg) hp (tboxName tr) b.name tr.data c
      refine ⟨?_, ?_, ?_⟩
      · rw [List.append_assoc] at h3
        exact h3
      · exact (grows_node _ _ _ _ _ _ _).trans ((grows_edge _ _ _ _ _ _ _).trans (grows_edge _ _ _ _ _ _ _))
      · exact (grows_edge _ _ _ _ _ _ _).trans (grows_edge _ _ _ _ _ _ _) _ _ ((displayNode_cell _ _ _ _ _ _ _ _ _).2 (.inr ⟨rfl, rfl⟩))
    | none =>
      obtain ⟨ls, ns, ks⟩ := t
      exact global a.name "ExternalDestination" ls ns ks rfl
  | none =>
    obtain ⟨ls, ns, ks⟩ := t
    cases dst with
    | some b => exact global "ExternalSource" b.name ls ns ks rfl
    | none => exact global "ExternalSource" "ExternalDestination" ls ns ks rfl

theorem transitions_inv {is line D} {cfg : Config} (c : Colour) : ∀ (xs : List ETr) {E t gl}, Inv is line E D t gl →
    (∀ x ∈ xs, ∀ i ∈ both x, i ∈ is) → (∀ x ∈ xs, ∀ i ∈ is, i.name ≠ tboxName x.tr) →
    let s := xs.foldl (displayTransitionEdge cfg c) (t, gl)
    Inv is line (E ++ xs.flatMap fun x => (twoEdges cfg c (srcName x.src) (tboxName x.tr) (dstName x.dst) x.tr.data).map ((x.group, ·)))
        D s.1 s.2 ∧ Grows t s.1 ∧ ∀ x ∈ xs, tboxName x.tr ∈ (s.1.cell x.group).2 := by
  intro xs
  induction xs with
  | nil => intro E t gl h _ _; exact ⟨by simpa using h, fun _ _ h => h, by simp⟩
  | cons x xs ih =>
    intro E t gl h hi hb
    obtain ⟨h1, g1, n1⟩ := transition_inv (cfg := cfg) h c x (hi x (by simp)) (hb x (by simp))
    obtain ⟨h2, g2, n2⟩ := ih h1 (fun y hy => hi y (by simp [hy])) (fun y hy => hb y (by simp [hy]))
    refine ⟨?_, g1.trans g2, ?_⟩
    · rw [List.append_assoc] at h2
      exact h2
    · intro y hy
      rcases List.mem_cons.1 hy with e | hy
      · rw [e]; exact g2 _ _ n1
      · exact n2 y hy

/-- Everything there is to display. -/
def allEnds (xs : List ETr) : List Info := outside :: ends xs

/-- The groups and the global stream at the end. -/
def transitionState (cfg : Config) (views buffers : List ETr) : Tree × List Line :=
  buffers.foldl (displayTransitionEdge cfg .buf)
    (views.foldl (displayTransitionEdge cfg .img) ((views ++ buffers).foldl
      (fun t x => displayAttachPass cfg (displayAttachPass cfg t x.src) x.dst) Tree.empty, []))

theorem transition_state (cfg : Config) (views buffers : List ETr)
    (hg : ∀ i ∈ ends (views ++ buffers), i.group ≠ [])
    (hG : GroupNames (ends (views ++ buffers))) (hP : PassNames (ends (views ++ buffers)))
    (hb : ∀ x ∈ views ++ buffers, ∀ i ∈ ends (views ++ buffers), i.name ≠ tboxName x.tr) :
    GroupNames (allEnds (views ++ buffers))
    ∧ (∀ x ∈ views ++ buffers, ∀ i ∈ allEnds (views ++ buffers), i.name ≠ tboxName x.tr)
    ∧ (∀ x ∈ views ++ buffers, ∀ j, j = x.src ∨ j = x.dst → ∀ i, j = some i → i ∈ ends (views ++ buffers))
    ∧ ∃ D, Inv (allEnds (views ++ buffers)) (lineOf cfg)
        (views.flatMap (fun x => (twoEdges cfg .img (srcName x.src) (tboxName x.tr) (dstName x.dst) x.tr.data).map ((x.group, ·))) ++
          buffers.flatMap (fun x => (twoEdges cfg .buf (srcName x.src) (tboxName x.tr) (dstName x.dst) x.tr.data).map ((x.group, ·))))
        D (transitionState cfg views buffers).1 (transitionState cfg views buffers).2
      ∧ (∀ i, i ∈ D ↔ ∃ x ∈ views ++ buffers, i ∈ both x)
      ∧ ∀ x ∈ views ++ buffers, tboxName x.tr ∈ ((transitionState cfg views buffers).1.cell x.group).2 := by
  let is := outside :: ends (views ++ buffers)
  have hP' : PassNames is := by
    intro i hi j hj e1 e2
    rcases List.mem_cons.1 hi with ei | hi <;> rcases List.mem_cons.1 hj with ej | hj
    · rw [ei, ej]
    · rw [ei] at e1; exact absurd e1.symm (hg j hj)
    · rw [ej] at e1; exact absurd e1 (hg i hi)
    · exact hP i hi j hj e1 e2
  have hgrp : ∀ p, IsGroup is p → IsGroup (ends (views ++ buffers)) p := by
    rintro p ⟨h0, i, hi, hp⟩
    refine ⟨h0, i, ?_, hp⟩
    rcases List.mem_cons.1 hi with e | hi
    · rw [e] at hp; exact absurd (List.prefix_nil.1 hp) h0
    · exact hi
  have hG' : GroupNames is := fun p g h => ⟨(hG p g (hgrp _ h)).1, fun q k h' => (hG p g (hgrp _ h)).2 q k (hgrp _ h')⟩
  have hb' : ∀ x ∈ views ++ buffers, ∀ i ∈ is, i.name ≠ tboxName x.tr := by
    intro x hx i hi
    rcases List.mem_cons.1 hi with e | hi
    · rw [e]; exact outside_box x.tr
    · exact hb x hx i hi
  have hend : ∀ x ∈ views ++ buffers, ∀ j, j = x.src ∨ j = x.dst → ∀ i, j = some i → i ∈ ends (views ++ buffers) := by
    intro x hx j hj i e
    refine List.mem_flatMap.2 ⟨x, hx, ?_⟩
    rcases hj with hj | hj <;> · rw [← hj, e]; simp
  have hmem : ∀ x ∈ views ++ buffers, ∀ i ∈ both x, i ∈ is := by
    intro x hx i hi
    have : ∃ j, (j = x.src ∨ j = x.dst) ∧ i = j.getD outside := by
      simp only [both, List.mem_cons, List.mem_nil_iff, or_false] at hi
      rcases hi with hi | hi
      · exact ⟨_, .inl rfl, hi⟩
      · exact ⟨_, .inr rfl, hi⟩
    obtain ⟨j, hj, e⟩ := this
    cases j with
    | none => rw [e]; exact List.mem_cons_self
    | some j => rw [e]; exact List.mem_cons_of_mem _ (hend x hx _ hj j rfl)
  obtain ⟨D, h0, hD⟩ := attaches_inv (cfg := cfg) hP' (views ++ buffers) (Inv.start is (lineOf cfg)) hmem hg
  obtain ⟨h1, g1, n1⟩ := transitions_inv (cfg := cfg) .img views h0 (fun x hx => hmem x (by simp [hx])) (fun x hx => hb' x (by simp [hx]))
  obtain ⟨h2, g2, n2⟩ := transitions_inv (cfg := cfg) .buf buffers h1 (fun x hx => hmem x (by simp [hx])) (fun x hx => hb' x (by simp [hx]))
  refine ⟨hG', hb', hend, D, ?_, ?_, ?_⟩
  · rw [List.nil_append] at h2
    exact h2
  · intro i
    rw [hD]
    simp
  · intro x hx
    rcases List.mem_append.1 hx with hx | hx
    · exact g2 _ _ (n1 x hx)
    · exact n2 x hx

/-- **C80** (partial: see the hypotheses), for `displayTransitions`: the text of the whole graph has balanced blocks; its edges are,
each once, two for each transition, in the cluster of the innermost group of both ends (none if an end is outside of the graph). Its
ellipses are, each once, the passes transitions are from or to, and one more if an end of a transition is outside of the graph. The boxes
are declared where their edges are; with groups, nothing is declared twice in a cluster. -/
theorem transitions_exported_partial (cfg : Config) (hs : cfg.splitGroups = false) (views buffers : List ETr)
    (hg : ∀ i ∈ ends (views ++ buffers), i.group ≠ [])
    (hG : GroupNames (ends (views ++ buffers))) (hP : PassNames (ends (views ++ buffers)))
    (hb : ∀ x ∈ views ++ buffers, ∀ i ∈ ends (views ++ buffers), i.name ≠ tboxName x.tr) :
    let text := Result.get (displayTransitions cfg views buffers) ""
    WellFormed text
    ∧ ((located [] text).filter (·.2.isEdge)).Perm
        (views.flatMap (transitionLines cfg .img) ++ buffers.flatMap (transitionLines cfg .buf))
    ∧ (∃ shown : List (Option Info), shown.Nodup ∧ (∀ i, i ∈ shown ↔ ∃ x ∈ views ++ buffers, i = x.src ∨ i = x.dst) ∧
        ((located [] text).filter (·.2.isEllipse)).Perm (shown.map (endLine cfg)))
    ∧ (∀ x ∈ views ++ buffers, ∃ id c, (place cfg x.group, .node (tboxName x.tr) .box id c) ∈ located [] text)
    ∧ (cfg.withGroups = true → ((located [] text).filterMap declared).Nodup) := by
  intro text
  obtain ⟨hG', hb', hend, D, h2, hD, hboxes⟩ := transition_state cfg views buffers hg hG hP hb
  have ht := h2.text hG' hs
  have etext : text = Result.get ((transitionState cfg views buffers).1.write cfg none 0 (transitionState cfg views buffers).2 []) "" := rfl
  rw [← etext] at ht
  obtain ⟨t1, t2, t3, t4⟩ := ht
  refine ⟨t1, t2.trans ?_, ?_, ?_, ?_⟩
  · rw [List.map_append, List.map_flatMap, List.map_flatMap]
    simp only [List.map_map]
    exact List.Perm.refl _
  · refine ⟨D.map fun i => if i.group = [] then none else some i, ?_, ?_, ?_⟩
    · have key : ∀ i ∈ allEnds (views ++ buffers), ∀ j ∈ allEnds (views ++ buffers), (if i.group = [] then none else some i) = (if j.group = [] then none else some j) → i = j := by
        intro i hi j hj e
        by_cases e1 : i.group = [] <;> by_cases e2 : j.group = [] <;> simp [e1, e2] at e
        · rcases List.mem_cons.1 hi with ei | hi <;> rcases List.mem_cons.1 hj with ej | hj
          · rw [ei, ej]
          · exact absurd e2 (hg j hj)
          · exact absurd e1 (hg i hi)
          · exact absurd e1 (hg i hi)
        · exact e
      have : ∀ l : List Info, (∀ i ∈ l, i ∈ allEnds (views ++ buffers)) → l.Nodup → (l.map fun i => if i.group = [] then none else some i).Nodup := by
        intro l
        induction l with
        | nil => intro _ _; simp
        | cons a l ih =>
          intro hl hn
          rw [List.nodup_cons] at hn
          rw [List.map_cons, List.nodup_cons]
          refine ⟨?_, ih (fun x hx => hl x (by simp [hx])) hn.2⟩
          intro hm
          obtain ⟨b, hb', e⟩ := List.mem_map.1 hm
          exact hn.1 (key b (hl b (by simp [hb'])) a (hl a (by simp)) e ▸ hb')
      exact this D h2.shown.2 h2.shown.1
    · intro i
      simp only [List.mem_map]
      constructor
      · rintro ⟨j, hj, e⟩
        obtain ⟨x, hx, hj'⟩ := (hD j).1 hj
        · refine ⟨x, hx, ?_⟩
          have : ∃ k, (k = x.src ∨ k = x.dst) ∧ j = k.getD outside := by
            simp only [both, List.mem_cons, List.mem_nil_iff, or_false] at hj'
            rcases hj' with hi | hi
            · exact ⟨_, .inl rfl, hi⟩
            · exact ⟨_, .inr rfl, hi⟩
          obtain ⟨k, hk, e'⟩ := this
          have ek : i = k := by
            cases k with
            | none =>
              rw [show j = outside from e', if_pos (show outside.group = [] from rfl)] at e
              exact e.symm
            | some k =>
              rw [show j = k from e', if_neg (hg k (hend x hx _ hk k rfl))] at e
              exact e.symm
          rw [ek]; exact hk
      · rintro ⟨x, hx, hi⟩
        refine ⟨i.getD outside, (hD _).2 ⟨x, hx, ?_⟩, ?_⟩
        · rcases hi with hi | hi <;> rw [hi] <;> simp [both]
        · cases i with
          | none => rfl
          | some i => exact if_neg (hg i (hend x hx _ hi i rfl))
    · refine t3.trans ?_
      rw [List.map_map]
      refine List.Perm.of_eq (List.map_congr_left ?_)
      intro i _
      by_cases e : i.group = []
      · simp [lineOf, e, endLine, place]
      · simp [lineOf, e, endLine]
  · intro x hx
    have hm := hboxes x hx
    rw [← h2.nodes] at hm
    obtain ⟨⟨p, l⟩, hl, e⟩ := List.mem_filterMap.1 hm
    cases l with
    | node s sh id c =>
      simp only [nodeKey, Option.some.injEq, Prod.mk.injEq] at e
      obtain ⟨e1, e2⟩ := e
      subst e1 e2
      cases sh with
      | box => exact ⟨id, c, t4.mem_iff.2 (List.mem_map.2 ⟨_, hl, rfl⟩)⟩
      | ellipse =>
        exfalso
        have := h2.ellipses.mem_iff.1 (List.mem_filter.2 ⟨hl, rfl⟩)
        obtain ⟨i, hi, e⟩ := List.mem_map.1 this
        simp only [Prod.mk.injEq] at e
        by_cases hgi : i.group = []
        · rw [lineOf, if_pos hgi] at e
          simp only [endLine, Line.node.injEq] at e
          exact outside_box x.tr e.2.1
        · rw [lineOf, if_neg hgi] at e
          simp only [passLine, Line.node.injEq] at e
          exact hb' x hx i (h2.shown.2 i hi) e.2.1
    | _ => simp [nodeKey] at e
  · intro hw
    refine ((t4.filterMap declared).nodup_iff).2 ?_
    exact declared_nodup hw _ h2.once

/-- C80, colours, for `displayTransitions`. -/
theorem transitions_shaded_partial (cfg : Config) (hs : cfg.splitGroups = false) (views buffers : List ETr)
    (hg : ∀ i ∈ ends (views ++ buffers), i.group ≠ [])
    (hG : GroupNames (ends (views ++ buffers))) (hP : PassNames (ends (views ++ buffers)))
    (hb : ∀ x ∈ views ++ buffers, ∀ i ∈ ends (views ++ buffers), i.name ≠ tboxName x.tr) :
    ∀ x ∈ shades 0 (Result.get (displayTransitions cfg views buffers) ""),
      x.2 = if cfg.withColours then some (min x.1 7) else none := by
  obtain ⟨hG', hb', hend, D, h2, hD, hboxes⟩ := transition_state cfg views buffers hg hG hP hb
  exact h2.shades hG' hs

end Verif.Dot
