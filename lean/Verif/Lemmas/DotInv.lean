import Verif.Lemmas.Dot
/-! What is displayed: an invariant of the streams. -/
namespace Verif.Dot

/-- Everything written so far, the global stream included. -/
def total (t : Tree) (gl : List Line) : List (Path × Line) := t.content ++ gl.map (([], ·))

/-- Group and name of a node. -/
def nodeKey : Path × Line → Option (Path × String)
  | (p, .node s _ _ _) => some (p, s)
  | _ => none

/-- `is`: passes that may be displayed, with their lines; `E`: edges written; `D`: passes displayed. -/
structure Inv (is : List Info) (line : Info → Line) (E : List (Path × Line)) (D : List Info) (t : Tree) (gl : List Line) : Prop where
  good : t.Good
  paths : ∀ q ∈ t.paths, q = [] ∨ ∃ i ∈ is, q <+: i.group
  plain : ∀ x ∈ total t gl, x.2.plain = true
  edges : ((total t gl).filter (·.2.isEdge)).Perm E
  ellipses : ((total t gl).filter (·.2.isEllipse)).Perm (D.map fun i => (i.group, line i))
  shown : D.Nodup ∧ ∀ i ∈ D, i ∈ is
  names : ∀ i ∈ is, i.name ∈ (t.cell i.group).2 ↔ i ∈ D
  once : ((total t gl).filterMap nodeKey).Nodup
  nodes : ∀ p s, (p, s) ∈ (total t gl).filterMap nodeKey ↔ s ∈ (t.cell p).2

theorem Inv.start (is : List Info) (line : Info → Line) : Inv is line [] [] Tree.empty [] where
  good := good_empty
  paths := fun q hq => by simp [Tree.empty, Tree.paths, Forest.paths] at hq; exact .inl hq
  plain := fun x hx => by simp [total, content_empty] at hx
  edges := by simp [total, content_empty]
  ellipses := by simp [total, content_empty]
  shown := by simp
  names := fun i _ => by simp [cell_empty]
  once := by simp [total, content_empty]
  nodes := fun p s => by simp [total, content_empty, cell_empty]

theorem total_update (f : List Line × List String → List Line × List String) (new : List Line) (p : Path) (t : Tree) (gl : List Line)
    (h : (f (t.cell p)).1 = (t.cell p).1 ++ new) : (total (t.update f p) gl).Perm (total t gl ++ new.map ((p, ·))) := by
  unfold total
  refine (List.Perm.append_right _ (content_update f new p t h)).trans ?_
  exact perm_middle _ _ _

theorem Inv.congr {is line E E' D t gl} (h : Inv is line E D t gl) (e : E.Perm E') : Inv is line E' D t gl :=
  { h with edges := h.edges.trans e }

/-- A node that isn't there yet is appended to the total; the tree changed only by the name. -/
theorem Inv.addNode {is line E D} {t t' : Tree} {gl gl' : List Line} {p : Path} {s : String} {sh : Shape} {id : Option Nat}
    {c : Option Colour} {D' : List Info} (h : Inv is line E D t gl) (hn : s ∉ (t.cell p).2)
    (ht : (total t' gl').Perm (total t gl ++ [(p, .node s sh id c)]))
    (hc : ∀ q x, x ∈ (t'.cell q).2 ↔ x ∈ (t.cell q).2 ∨ (q = p ∧ x = s))
    (hg : t'.Good) (hp : ∀ q ∈ t'.paths, q = [] ∨ ∃ i ∈ is, q <+: i.group)
    (hD : D'.Nodup ∧ ∀ i ∈ D', i ∈ is)
    (he : (((total t gl).filter (·.2.isEllipse)) ++ ([((p, .node s sh id c) : Path × Line)].filter (·.2.isEllipse))).Perm
      (D'.map fun i => (i.group, line i)))
    (hnm : ∀ i ∈ is, (i.name ∈ (t.cell i.group).2 ∨ (i.group = p ∧ i.name = s)) ↔ i ∈ D') :
    Inv is line E D' t' gl' where
  good := hg
  paths := hp
  plain := fun x hx => by
    rcases List.mem_append.1 (ht.mem_iff.1 hx) with hx | hx
    · exact h.plain x hx
    · rw [List.mem_singleton.1 hx]; rfl
  edges := by
    refine (ht.filter _).trans ?_
    rw [List.filter_append]
    simpa [Line.isEdge] using h.edges
  ellipses := by
    refine (ht.filter _).trans ?_
    rw [List.filter_append]
    exact he
  shown := hD
  names := fun i hi => by rw [hc]; exact hnm i hi
  once := by
    refine ((ht.filterMap nodeKey).nodup_iff).2 ?_
    rw [List.filterMap_append, List.nodup_append]
    refine ⟨h.once, by simp [nodeKey], ?_⟩
    intro a ha b hb e
    simp only [List.filterMap_cons, nodeKey, List.filterMap_nil, List.mem_singleton] at hb
    rw [e, hb] at ha
    exact hn ((h.nodes p s).1 ha)
  nodes := fun q x => by
    rw [(ht.filterMap nodeKey).mem_iff, List.filterMap_append, List.mem_append, h.nodes, hc]
    simp [nodeKey]

theorem displayNode_cell (cfg : Config) (p : Path) (s : String) (sh : Shape) (id : Option Nat) (c : Colour) (t : Tree) (q : Path) (x : String) :
    x ∈ ((displayNode cfg p s sh id c t).cell q).2 ↔ x ∈ (t.cell q).2 ∨ (q = p ∧ x = s) := by
  unfold displayNode
  rw [cell_update]
  by_cases e : q = p
  · subst e
    simp only [if_pos, true_and]
    by_cases hs : s ∈ (t.cell q).2
    · simp only [if_pos hs]
      exact ⟨.inl, fun h => h.elim _root_.id (fun e => e ▸ hs)⟩
    · simp only [if_neg hs, List.mem_cons]
      exact or_comm
  · simp [e]

theorem displayNode_total (cfg : Config) (p : Path) (s : String) (sh : Shape) (id : Option Nat) (c : Colour) (t : Tree) (gl : List Line)
    (hs : s ∉ (t.cell p).2) :
    (total (displayNode cfg p s sh id c t) gl).Perm (total t gl ++ [(p, .node s sh id (shade cfg c))]) := by
  refine total_update _ [.node s sh id (shade cfg c)] p t gl ?_
  simp only [if_neg hs]; rfl

theorem displayNode_same (cfg : Config) (p : Path) (s : String) (sh : Shape) (id : Option Nat) (c : Colour) (t : Tree) (gl : List Line)
    (hs : s ∈ (t.cell p).2) : (total (displayNode cfg p s sh id c t) gl).Perm (total t gl) := by
  have := total_update (fun c' => if s ∈ c'.2 then c' else (c'.1 ++ [.node s sh id (shade cfg c)], s :: c'.2)) [] p t gl (by simp [hs])
  rw [List.map_nil, List.append_nil] at this
  exact this

theorem group_paths {is : List Info} {t : Tree} (f : List Line × List String → List Line × List String) {p : Path}
    (h : ∀ q ∈ t.paths, q = [] ∨ ∃ i ∈ is, q <+: i.group) (hp : p = [] ∨ ∃ i ∈ is, p <+: i.group) :
    ∀ q ∈ (t.update f p).paths, q = [] ∨ ∃ i ∈ is, q <+: i.group := by
  intro q hq
  rcases paths_update f p t q hq with hq | hq
  · exact h q hq
  · rcases hp with hp | ⟨i, hi, hp⟩
    · rw [hp] at hq; exact .inl (List.prefix_nil.1 hq)
    · exact .inr ⟨i, hi, hq.trans hp⟩

/-- A pass is displayed, unless it was. -/
theorem Inv.pass {is line E D t gl} {cfg : Config} (h : Inv is line E D t gl) (hP : PassNames is) {i : Info} (hi : i ∈ is)
    {id : Option Nat} {c : Colour} (hl : line i = .node i.name .ellipse id (shade cfg c)) :
    ∃ D', Inv is line E D' (displayNode cfg i.group i.name .ellipse id c t) gl ∧ ∀ x, x ∈ D' ↔ x ∈ D ∨ x = i := by
  have hpaths := group_paths (fun c' => if i.name ∈ c'.2 then c' else (c'.1 ++ [.node i.name .ellipse id (shade cfg c)], i.name :: c'.2))
    h.paths (.inr ⟨i, hi, List.prefix_refl _⟩)
  by_cases hs : i.name ∈ (t.cell i.group).2
  · have hp := displayNode_same cfg i.group i.name .ellipse id c t gl hs
    have hc : ∀ q x, x ∈ ((displayNode cfg i.group i.name .ellipse id c t).cell q).2 ↔ x ∈ (t.cell q).2 := fun q x => by
      rw [displayNode_cell]
      exact ⟨fun h => h.elim _root_.id (fun e => by rw [e.1, e.2]; exact hs), .inl⟩
    have hiD := (h.names i hi).1 hs
    refine ⟨D, ⟨good_update _ _ _ h.good, hpaths, fun x hx => h.plain x (hp.mem_iff.1 hx), (hp.filter _).trans h.edges,
      (hp.filter _).trans h.ellipses, h.shown, fun j hj => by rw [hc]; exact h.names j hj,
      ((hp.filterMap nodeKey).nodup_iff).2 h.once, fun q x => by rw [(hp.filterMap nodeKey).mem_iff, hc]; exact h.nodes q x⟩, ?_⟩
    intro x
    exact ⟨.inl, fun e => e.elim _root_.id (fun e => e ▸ hiD)⟩
  · have hiD : i ∉ D := fun e => hs ((h.names i hi).2 e)
    refine ⟨D ++ [i], h.addNode hs (displayNode_total cfg _ _ _ _ _ t gl hs) (displayNode_cell cfg _ _ _ _ _ t) (good_update _ _ _ h.good)
      hpaths ?_ ?_ ?_, by simp⟩
    · refine ⟨?_, ?_⟩
      · rw [List.nodup_append]
        exact ⟨h.shown.1, by simp, fun a ha b hb e => hiD (by rw [List.mem_singleton.1 hb] at e; exact e ▸ ha)⟩
      · intro j hj
        rcases List.mem_append.1 hj with hj | hj
        · exact h.shown.2 j hj
        · rw [List.mem_singleton.1 hj]; exact hi
    · rw [List.map_append]
      refine List.Perm.append h.ellipses ?_
      simp [Line.isEllipse, hl]
    · intro j hj
      rw [h.names j hj, List.mem_append, List.mem_singleton]
      exact or_congr Iff.rfl ⟨fun e => hP j hj i hi e.1 e.2, fun e => by rw [e]; exact ⟨rfl, rfl⟩⟩

/-- A box is displayed, unless it was. -/
theorem Inv.box {is line E D t gl} {cfg : Config} (h : Inv is line E D t gl) {p : Path} (hp : p = [] ∨ ∃ i ∈ is, p <+: i.group)
    {s : String} (hs : ∀ i ∈ is, i.name ≠ s) (c : Colour) : Inv is line E D (displayNode cfg p s .box none c t) gl := by
  have hpaths := group_paths (fun c' => if s ∈ c'.2 then c' else (c'.1 ++ [.node s .box none (shade cfg c)], s :: c'.2)) h.paths hp
  by_cases hm : s ∈ (t.cell p).2
  · have hp' := displayNode_same cfg p s .box none c t gl hm
    have hc : ∀ q x, x ∈ ((displayNode cfg p s .box none c t).cell q).2 ↔ x ∈ (t.cell q).2 := fun q x => by
      rw [displayNode_cell]
      exact ⟨fun h => h.elim _root_.id (fun e => by rw [e.1, e.2]; exact hm), .inl⟩
    exact ⟨good_update _ _ _ h.good, hpaths, fun x hx => h.plain x (hp'.mem_iff.1 hx), (hp'.filter _).trans h.edges,
      (hp'.filter _).trans h.ellipses, h.shown, fun j hj => by rw [hc]; exact h.names j hj,
      ((hp'.filterMap nodeKey).nodup_iff).2 h.once, fun q x => by rw [(hp'.filterMap nodeKey).mem_iff, hc]; exact h.nodes q x⟩
  · refine h.addNode hm (displayNode_total cfg _ _ _ _ _ t gl hm) (displayNode_cell cfg _ _ _ _ _ t) (good_update _ _ _ h.good)
      hpaths h.shown ?_ ?_
    · simpa [Line.isEllipse] using h.ellipses
    · intro i hi
      rw [h.names i hi]
      exact ⟨fun e => e.elim _root_.id (fun e => absurd e.2 (hs i hi)), .inl⟩

theorem displayEdge_cell (cfg : Config) (p : Path) (a b l : String) (c : Colour) (t : Tree) (q : Path) :
    ((displayEdge cfg p a b l c t).cell q).2 = (t.cell q).2 := by
  unfold displayEdge
  rw [cell_update]
  by_cases e : q = p
  · subst e; simp
  · simp [e]

/-- An edge is appended to the total. -/
theorem Inv.addEdge {is line E D} {t t' : Tree} {gl gl' : List Line} {p : Path} {a b l : String} {c : Option Colour}
    (h : Inv is line E D t gl) (ht : (total t' gl').Perm (total t gl ++ [(p, .edge a b l c)]))
    (hc : ∀ q, (t'.cell q).2 = (t.cell q).2) (hg : t'.Good) (hp : ∀ q ∈ t'.paths, q = [] ∨ ∃ i ∈ is, q <+: i.group) :
    Inv is line (E ++ [(p, .edge a b l c)]) D t' gl' where
  good := hg
  paths := hp
  plain := fun x hx => by
    rcases List.mem_append.1 (ht.mem_iff.1 hx) with hx | hx
    · exact h.plain x hx
    · rw [List.mem_singleton.1 hx]; rfl
  edges := by
    refine (ht.filter _).trans ?_
    rw [List.filter_append]
    exact List.Perm.append h.edges (by simp [Line.isEdge])
  ellipses := by
    refine (ht.filter _).trans ?_
    rw [List.filter_append]
    simpa [Line.isEllipse] using h.ellipses
  shown := h.shown
  names := fun i hi => by rw [hc]; exact h.names i hi
  once := by
    refine ((ht.filterMap nodeKey).nodup_iff).2 ?_
    rw [List.filterMap_append, show List.filterMap nodeKey [((p, .edge a b l c) : Path × Line)] = [] from rfl, List.append_nil]
    exact h.once
  nodes := fun q x => by
    rw [(ht.filterMap nodeKey).mem_iff, List.filterMap_append, hc,
      show List.filterMap nodeKey [((p, .edge a b l c) : Path × Line)] = [] from rfl, List.append_nil]
    exact h.nodes q x

theorem Inv.edge {is line E D t gl} {cfg : Config} (h : Inv is line E D t gl) {p : Path} (hp : p = [] ∨ ∃ i ∈ is, p <+: i.group)
    (a b l : String) (c : Colour) : Inv is line (E ++ [(p, .edge a b l (shade cfg c))]) D (displayEdge cfg p a b l c t) gl :=
  h.addEdge (total_update _ [.edge a b l (shade cfg c)] p t gl rfl) (displayEdge_cell cfg p a b l c t) (good_update _ _ _ h.good)
    (group_paths _ h.paths hp)

/-- The keys of the streams are different. -/
theorem Inv.keys {is line E D t gl} (h : Inv is line E D t gl) (hG : GroupNames is) : (t.keys "").Nodup := by
  rw [keys_eq]
  have hn := paths_nodup t h.good
  have hinj : ∀ p ∈ t.paths, ∀ q ∈ t.paths,
      ((p.getLast?.map (·.name)).getD "") = ((q.getLast?.map (·.name)).getD "") → p = q := by
    have hgrp : ∀ p ∈ t.paths, p = [] ∨ ∃ p' g, p = p' ++ [g] ∧ IsGroup is (p' ++ [g]) := by
      intro p hp
      rcases List.eq_nil_or_concat p with e | ⟨p', g, e⟩
      · exact .inl e
      · rw [List.concat_eq_append] at e
        right
        refine ⟨p', g, e, by simp, ?_⟩
        rcases h.paths p hp with h0 | h0
        · rw [h0] at e; simp at e
        · rw [← e]; exact h0
    intro p hp q hq e
    rcases hgrp p hp with ep | ⟨p', g, ep, gp⟩ <;> rcases hgrp q hq with eq | ⟨q', k, eq, gq⟩
    · rw [ep, eq]
    · rw [ep, eq] at e
      simp at e
      exact absurd e (hG q' k gq).1
    · rw [ep, eq] at e
      simp at e
      exact absurd e (hG p' g gp).1
    · rw [ep, eq] at e
      simp at e
      rw [ep, eq]
      exact (hG p' g gp).2 q' k gq e
  clear h hG
  revert hn hinj
  generalize t.paths = l
  intro hn hinj
  induction l with
  | nil => simp
  | cons a l ih =>
    rw [List.map_cons, List.nodup_cons]
    rw [List.nodup_cons] at hn
    refine ⟨?_, ih hn.2 (fun p hp q hq => hinj p (by simp [hp]) q (by simp [hq]))⟩
    intro hm
    obtain ⟨b, hb, e⟩ := List.mem_map.1 hm
    exact hn.1 (hinj b (by simp [hb]) a (by simp) e ▸ hb)

/-- The text at the end. -/
theorem Inv.text {is line E D t gl} (h : Inv is line E D t gl) (hG : GroupNames is) {cfg : Config} (hs : cfg.splitGroups = false) :
    let text := Result.get (t.write cfg none 0 gl []) ""
    WellFormed text
    ∧ ((located [] text).filter (·.2.isEdge)).Perm (E.map fun x => (place cfg x.1, x.2))
    ∧ ((located [] text).filter (·.2.isEllipse)).Perm (D.map fun i => (place cfg i.group, line i))
    ∧ (located [] text).Perm ((total t gl).map fun x => (place cfg x.1, x.2)) := by
  have hw := (write_render cfg hs t none 0 gl [] (h.keys hG) (fun _ _ => rfl)).1
  have ht := root_text cfg t gl (fun x hx => h.plain x (by simp [total, hx]))
    (fun l hl => h.plain ([], l) (by simp [total, hl]))
  simp only [keyOf] at hw
  simp only [hw, ht.2]
  have e : t.content.map (fun x => (place cfg x.1, x.2)) ++ gl.map (([], ·)) = (total t gl).map fun x => (place cfg x.1, x.2) := by
    unfold total
    rw [List.map_append, List.map_map]
    congr 1
    apply List.map_congr_left
    intro x _
    simp only [Function.comp_def, place]
    split <;> rfl
  rw [e]
  refine ⟨ht.1, ?_, ?_, List.Perm.refl _⟩
  · rw [List.filter_map]
    exact h.edges.map _
  · rw [List.filter_map]
    have := h.ellipses.map (fun x => (place cfg x.1, x.2))
    rw [List.map_map] at this
    exact this

/-- The shades of the clusters at the end. -/
theorem Inv.shades {is line E D t gl} (h : Inv is line E D t gl) (hG : GroupNames is) {cfg : Config} (hs : cfg.splitGroups = false) :
    ∀ x ∈ Dot.shades 0 (Result.get (t.write cfg none 0 gl []) ""), x.2 = if cfg.withColours then some (min x.1 7) else none := by
  have hw := (write_render cfg hs t none 0 gl [] (h.keys hG) (fun _ _ => rfl)).1
  simp only [keyOf] at hw
  rw [hw]
  exact root_shades cfg t gl (fun x hx => h.plain x (by simp [total, hx])) (fun l hl => h.plain ([], l) (by simp [total, hl]))

end Verif.Dot
