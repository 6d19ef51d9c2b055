import Verif.Props.DotTrans
import Verif.Lemmas.DotSplit
import Verif.Props.EdgeData
/-! C80: compiled graphs; what the export gets wrong. -/
namespace Verif.Dot

/-- The edges shown for the transitions the compiled graph has between two passes. -/
def compiledLines (cfg : Config) (info : Nat → Info) (att : Att.Attachment → String) (view : View → String) (buf : List Nat → String)
    (e : Deps.AttTrans) (a b : Nat) : List Line :=
  e.views.flatMap (fun t => twoEdges cfg .img (info a).name ("Transition to\\n" ++ att t.input) (info b).name (view t.data)) ++
  e.buffers.flatMap (fun t => twoEdges cfg .buf (info a).name ("Transition to\\n" ++ att t.input) (info b).name (buf t.data))

/-- C80 for the graph `FrameGraph::compile` builds. -/
theorem compiled_exported_partial (cfg : Config) (hs : cfg.splitGroups = false) (sources : View → List View) (H : Deps.Heap)
    (known : View → Prop) (h : Deps.WellFormed H known) (hcl : Deps.Closed H) (hac : Deps.Acyclic H) (hu : H.univ.Nodup)
    (info : Nat → Info) (att : Att.Attachment → String) (view : View → String) (buf : List Nat → String)
    (hG : GroupNames (H.univ.map info))
    (hP : ∀ x ∈ H.univ, ∀ y ∈ H.univ, (info x).group = (info y).group → (info x).name = (info y).name → x = y)
    (hb : ∀ x ∈ H.univ, ∀ s, (info x).name ≠ "Transition to\\n" ++ s) (fuel : Nat) (hf : H.univ.length ≤ fuel) :
    let g := Deps.compileGraph sources H H.univ
    let G := ofCompiled info att view buf g
    let text := streamPasses cfg G fuel
    WellFormed text
    ∧ ((located [] text).filter (·.2.isEdge)).Perm
        (H.univ.flatMap fun a => (g.next a).flatMap fun b =>
          (compiledLines cfg info att view buf (g.attaches a b) a b).map ((place cfg (common (info a).group (info b).group), ·)))
    ∧ (∃ shown : List Nat, shown.Nodup ∧
        (∀ x, x ∈ shown ↔ x ∈ H.univ ∧ (g.next x ≠ [] ∨ ∃ a ∈ H.univ, x ∈ g.next a)) ∧
        ((located [] text).filter (·.2.isEllipse)).Perm (shown.map fun x => (place cfg (info x).group, passLine cfg (info x)))) := by
  intro g G text
  obtain ⟨h1, h2, h3, -⟩ := passes_exported_partial cfg hs G H.univ
    (compiled_nodes sources H known h hcl hac hu info att view buf) hG hP hb fuel hf
  refine ⟨h1, ?_, h3⟩
  have e : ∀ a b, edgeLines cfg G a b = compiledLines cfg info att view buf (g.attaches a b) a b := by
    intro a b
    simp only [edgeLines, compiledLines, G, ofCompiled, List.flatMap_map, boxName]
    rfl
  simp only [← e]
  exact h2

/-! ## All streams one after the other -/

/-- C80 is false of `displayTransitions( ostream, … )`: as soon as a transition has a pass, the text isn't one graph, as the
streams of groups, already copied into the root's, follow it. -/
theorem transitions_stream_malformed (cfg : Config) (hs : cfg.splitGroups = false) (views buffers : List ETr)
    (hg : ∀ i ∈ ends (views ++ buffers), i.group ≠ [])
    (hG : GroupNames (ends (views ++ buffers))) (hP : PassNames (ends (views ++ buffers)))
    (hb : ∀ x ∈ views ++ buffers, ∀ i ∈ ends (views ++ buffers), i.name ≠ tboxName x.tr)
    (hne : ends (views ++ buffers) ≠ []) : ¬ WellFormed (streamTransitions cfg views buffers) := by
  obtain ⟨w1, -⟩ := transitions_exported_partial cfg hs views buffers hg hG hP hb
  obtain ⟨-, -, -, D, hI, hD, -⟩ := transition_state cfg views buffers hg hG hP hb
  obtain ⟨i, hi⟩ := List.exists_mem_of_ne_nil _ hne
  have hiD : i ∈ D := by
    rw [hD]
    obtain ⟨x, hx, hix⟩ := List.mem_flatMap.1 hi
    refine ⟨x, hx, ?_⟩
    rcases List.mem_append.1 hix with h | h <;>
    · rw [Option.mem_toList] at h
      simp [both, h]
  have hmem : (i.group, lineOf cfg i) ∈ (transitionState cfg views buffers).1.content := by
    have := (List.mem_filter.1 (hI.ellipses.mem_iff.2 (List.mem_map.2 ⟨i, hiD, rfl⟩))).1
    rcases List.mem_append.1 this with h | h
    · exact h
    · obtain ⟨l, _, e⟩ := List.mem_map.1 h
      exact absurd (Prod.mk.inj e).1.symm (hg i hi)
  have hkey : lastName "" i.group ≠ "" := by
    rcases List.eq_nil_or_concat i.group with e | ⟨p, g, e⟩
    · exact absurd e (hg i hi)
    · rw [List.concat_eq_append] at e
      have := (hG p g ⟨by simp, i, hi, by rw [e]; exact List.prefix_refl _⟩).1
      rw [e]
      simpa [lastName] using this
  have hwr := content_written cfg hs (transitionState cfg views buffers).1 none 0 (transitionState cfg views buffers).2 [] _ hmem
  have hkeys := write_keys cfg (transitionState cfg views buffers).1 none 0 (transitionState cfg views buffers).2 [] (by simp)
  have edef : displayTransitions cfg views buffers =
    (transitionState cfg views buffers).1.write cfg none 0 (transitionState cfg views buffers).2 [] := rfl
  rw [← edef] at hwr hkeys
  have h0 : Result.get (displayTransitions cfg views buffers) "" ≠ [] := by
    obtain ⟨n, b, e, -⟩ := w1
    rw [e]; simp
  obtain ⟨rest, er, hrest⟩ := sorted_texts _ hkeys h0
  intro hw
  rw [streamTransitions, er, List.flatMap_cons] at hw
  have := wellFormed_append w1 hw
  have hl : lineOf cfg i ∈ rest.flatMap (·.2) :=
    List.mem_flatMap.2 ⟨_, hrest _ hkey (List.ne_nil_of_mem hwr), hwr⟩
  rw [this] at hl
  cases hl

/-! ## One text for each group -/

mutual
theorem paths_prefix : ∀ (t : Tree) (p q : Path), p ∈ t.paths → q <+: p → q ∈ t.paths
  | .mk ls ns ks, p, q, hp, hq => by
    simp only [Tree.paths, List.mem_cons] at hp ⊢
    rcases hp with rfl | hp
    · exact .inl (List.prefix_nil.1 hq)
    · cases q with
      | nil => exact .inl rfl
      | cons g q => exact .inr (forest_paths_prefix ks p g q hp hq)
theorem forest_paths_prefix : ∀ (ks : Forest) (p : Path) (g : Grp) (q : Path), p ∈ ks.paths → g :: q <+: p → g :: q ∈ ks.paths
  | .nil, p, g, q, hp, hq => by simp [Forest.paths] at hp
  | .cons k t r, p, g, q, hp, hq => by
    simp only [Forest.paths, List.mem_append, List.mem_map] at hp ⊢
    rcases hp with ⟨p', hp', rfl⟩ | hp
    · obtain ⟨e, hq'⟩ := List.cons_prefix_cons.1 hq
      exact .inl ⟨q, paths_prefix t p' q hp' hq', by rw [e]⟩
    · exact .inr (forest_paths_prefix r p g q hp hq)
end

mutual
theorem cell_paths : ∀ (t : Tree) (p : Path), (t.cell p).2 ≠ [] → p ∈ t.paths
  | .mk ls ns ks, p, h => by
    cases p with
    | nil => simp [Tree.paths]
    | cons g p => simp only [Tree.paths, List.mem_cons]; exact .inr (forest_cell_paths ks g p h)
theorem forest_cell_paths : ∀ (ks : Forest) (g : Grp) (p : Path), (Tree.cell p (ks.find g)).2 ≠ [] → g :: p ∈ ks.paths
  | .nil, g, p, h => by simp [Forest.find, cell_empty] at h
  | .cons k t r, g, p, h => by
    simp only [Forest.find] at h
    simp only [Forest.paths, List.mem_append, List.mem_map]
    split at h
    · rename_i e; exact .inl ⟨p, cell_paths t p h, by rw [e]⟩
    · exact .inr (forest_cell_paths r g p h)
end

/-- With `splitGroups`, every group has a text of its own: a graph with the name of the group, with the passes of the group
that have an edge, each once, and two edges for each transition for which it is the innermost group of both passes. -/
theorem split_exported_partial (cfg : Config) (hs : cfg.splitGroups = true) (G : Graph) (U : List Nat) (h : Nodes G U)
    (hG : GroupNames (U.map G.info))
    (hP : ∀ x ∈ U, ∀ y ∈ U, (G.info x).group = (G.info y).group → (G.info x).name = (G.info y).name → x = y)
    (hb : ∀ x ∈ U, ∀ s, (G.info x).name ≠ "Transition to\\n" ++ s) (fuel : Nat) (hf : U.length ≤ fuel)
    (p : Path) (g : Grp) (hpg : ∃ x, Linked G U x ∧ p ++ [g] <+: (G.info x).group) :
    let text := Result.get (displayPasses cfg G fuel) g.name
    (∃ body, text = .digraph (some g.name) :: body ++ [.close] ∧ ∀ l ∈ body, l.plain = true)
    ∧ (text.filter (·.isEdge)).Perm (U.flatMap fun a => (G.next a).flatMap fun b =>
        if common (G.info a).group (G.info b).group = p ++ [g] then edgeLines cfg G a b else [])
    ∧ ∃ shown : List Nat, shown.Nodup ∧ (∀ x, x ∈ shown ↔ Linked G U x ∧ (G.info x).group = p ++ [g]) ∧
        (text.filter (·.isEllipse)).Perm (shown.map fun x => passLine cfg (G.info x)) := by
  intro text
  obtain ⟨D, shown, hI, hsn, hsl, hDs, -, -⟩ := passes_state cfg G U h hP hb fuel hf
  generalize ht : (visitRoot G.next fuel (G.next 0) []).2.foldl (printEdge cfg G) Tree.empty = t at hI
  have hpath : p ++ [g] ∈ t.paths := by
    obtain ⟨x, hx, hp⟩ := hpg
    refine paths_prefix t _ _ (cell_paths t (G.info x).group ?_) hp
    refine List.ne_nil_of_mem ((hI.names (G.info x) (List.mem_map_of_mem hx.1)).2 ?_)
    exact hDs.mem_iff.2 (List.mem_map_of_mem ((hsl x).2 hx))
  have hw := (write_split cfg hs t none 0 [] [] hI.good (hI.keys hG) (fun _ _ => rfl)).1 (p ++ [g]) hpath (.inl (by simp))
  have ek : lastName (keyOf none) (p ++ [g]) = g.name := by simp [lastName]
  rw [ek] at hw
  have etext : text = .digraph (some g.name) :: (t.cell (p ++ [g])).1 ++ [.close] := by
    rw [← hw, ← ht]; rfl
  have hcell := content_cell t hI.good (p ++ [g])
  have hfil : ∀ f : Line → Bool, f (.digraph (some g.name)) = false → f .close = false →
      text.filter f = ((t.content.filter (fun x => f x.2)).filter (fun x => decide (x.1 = p ++ [g]))).map (·.2) := by
    intro f f1 f2
    have sw : (t.content.filter (fun x => f x.2)).filter (fun x => decide (x.1 = p ++ [g])) =
        (t.content.filter (fun x => decide (x.1 = p ++ [g]))).filter (fun x => f x.2) := by
      rw [List.filter_filter, List.filter_filter]
      congr 1
      funext x
      exact Bool.and_comm _ _
    rw [sw, hcell, etext]
    simp [f1, f2, List.filter_map, Function.comp_def]
  have etot : total t [] = t.content := by simp [total]
  have hedges := hI.edges
  have hell := hI.ellipses
  rw [etot] at hedges hell
  refine ⟨⟨_, etext, ?_⟩, ?_, ?_⟩
  · intro l hl
    refine hI.plain (p ++ [g], l) ?_
    rw [etot]
    have : (p ++ [g], l) ∈ t.content.filter (fun x => decide (x.1 = p ++ [g])) := by
      rw [hcell]; exact List.mem_map_of_mem hl
    exact (List.mem_filter.1 this).1
  · rw [hfil _ rfl rfl]
    refine ((hedges.filter _).map _).trans (List.Perm.of_eq ?_)
    rw [List.filter_flatMap, List.map_flatMap]
    congr 1
    funext a
    rw [List.filter_flatMap, List.map_flatMap]
    congr 1
    funext b
    by_cases e : common (G.info a).group (G.info b).group = p ++ [g]
    · simp [e, List.filter_map, Function.comp_def]
    · simp [e, List.filter_map, Function.comp_def]
  · refine ⟨shown.filter (fun x => decide ((G.info x).group = p ++ [g])), List.Pairwise.filter _ hsn, ?_, ?_⟩
    · intro x
      simp only [List.mem_filter, hsl, decide_eq_true_eq]
    · rw [hfil _ rfl rfl]
      refine ((hell.filter _).map _).trans ?_
      rw [List.filter_map, List.map_map]
      refine ((hDs.filter _).map _).trans (List.Perm.of_eq ?_)
      rw [List.filter_map, List.map_map]
      rfl

/-! ## Examples -/

def gMain : Grp := ⟨0, "G"⟩
def gSub : Grp := ⟨1, "Sub"⟩

/-- Pass 1 (group G) and pass 2 (group Sub in G) write what pass 3 (Sub) reads; pass 4 has no edge. -/
def sample : Graph where
  info n := match n with
    | 1 => ⟨1, "G/A", [gMain]⟩
    | 2 => ⟨2, "Sub/B", [gMain, gSub]⟩
    | 3 => ⟨3, "Sub/C", [gMain, gSub]⟩
    | _ => ⟨n, "G/D", [gMain]⟩
  next n := match n with
    | 0 => [1, 2, 4]
    | 1 => [3]
    | 2 => [3]
    | _ => []
  views a b := if (a, b) = (1, 3) then [⟨"A/out", "C/in", "img"⟩] else []
  buffers a b := if (a, b) = (2, 3) then [⟨"B/out", "C/buf", "buf"⟩] else []

theorem sample_nodes : Nodes sample [1, 2, 3, 4] where
  nodup := by decide
  closed := by
    have h : ∀ a ∈ [0, 1, 2, 3, 4], ∀ b ∈ sample.next a, b ∈ [1, 2, 3, 4] := by decide
    intro a ha
    exact h a (by rcases ha with rfl | ha <;> simp_all)
  first := by decide
  reached := by
    intro b hb
    simp only [List.mem_cons, List.mem_nil_iff, or_false] at hb
    have h0 : ∀ b ∈ [1, 2, 4], b ∈ sample.next 0 := by decide
    rcases hb with rfl | rfl | rfl | rfl
    · exact .root (h0 1 (by decide))
    · exact .root (h0 2 (by decide))
    · exact .step (.root (h0 1 (by decide))) (show 3 ∈ sample.next 1 by decide)
    · exact .root (h0 4 (by decide))

theorem sample_groups : GroupNames ([1, 2, 3, 4].map sample.info) := by
  have key : ∀ p, IsGroup ([1, 2, 3, 4].map sample.info) p → p = [gMain] ∨ p = [gMain, gSub] := by
    rintro p ⟨h0, i, hi, hp⟩
    have hg : i.group = [gMain] ∨ i.group = [gMain, gSub] := by
      have : ∀ i ∈ [1, 2, 3, 4].map sample.info, i.group = [gMain] ∨ i.group = [gMain, gSub] := by decide
      exact this i hi
    rcases hg with hg | hg <;> rw [hg] at hp
    · rcases p with _ | ⟨a, p⟩
      · exact absurd rfl h0
      · obtain ⟨e, hp⟩ := List.cons_prefix_cons.1 hp
        rw [List.prefix_nil.1 hp, e]; exact .inl rfl
    · rcases p with _ | ⟨a, p⟩
      · exact absurd rfl h0
      · obtain ⟨e, hp⟩ := List.cons_prefix_cons.1 hp
        rcases p with _ | ⟨b, p⟩
        · rw [e]; exact .inl rfl
        · obtain ⟨e', hp⟩ := List.cons_prefix_cons.1 hp
          rw [List.prefix_nil.1 hp, e, e']; exact .inr rfl
  have last : ∀ p g, IsGroup ([1, 2, 3, 4].map sample.info) (p ++ [g]) → (p = [] ∧ g = gMain) ∨ (p = [gMain] ∧ g = gSub) := by
    intro p g h
    rcases key _ h with e | e
    · left; exact List.append_inj' (t₁ := [g]) (s₂ := []) (t₂ := [gMain]) e rfl |>.imp _root_.id (fun e => by simpa using e)
    · right; exact List.append_inj' (t₁ := [g]) (s₂ := [gMain]) (t₂ := [gSub]) e rfl |>.imp _root_.id (fun e => by simpa using e)
  intro p g h
  refine ⟨?_, ?_⟩
  · rcases last p g h with ⟨-, rfl⟩ | ⟨-, rfl⟩ <;> decide
  · intro q k h' e
    rcases last p g h with ⟨rfl, rfl⟩ | ⟨rfl, rfl⟩ <;> rcases last q k h' with ⟨rfl, rfl⟩ | ⟨rfl, rfl⟩
    · rfl
    · exact absurd e (by decide)
    · exact absurd e (by decide)
    · rfl

theorem sample_boxes : ∀ x ∈ [1, 2, 3, 4], ∀ s, (sample.info x).name ≠ "Transition to\\n" ++ s := by
  have h : ∀ x ∈ [1, 2, 3, 4], (sample.info x).name.toList.head? ≠ some 'T' := by decide
  intro x hx s e
  refine h x hx ?_
  rw [e]
  simp

/-- The hypotheses of `passes_exported_partial` hold of `sample`. -/
example : WellFormed (streamPasses { withGroups := true } sample 4) :=
  (passes_exported_partial { withGroups := true } rfl sample [1, 2, 3, 4] sample_nodes sample_groups
    (by decide) sample_boxes 4 (by decide)).1

/-- Pass 4 is in the graph and not in the text. -/
example : ∀ x ∈ located [] (streamPasses {} sample 4), ∀ id c, x.2 ≠ .node "G/D" .ellipse id c :=
  lone_pass_not_exported {} rfl sample [1, 2, 3, 4] sample_nodes sample_groups (by decide) sample_boxes 4 (by decide) 4 (by decide)
    (by
      rintro ⟨-, h | ⟨a, ha, h⟩⟩
      · exact h rfl
      · have : ∀ a ∈ [1, 2, 3, 4], 4 ∉ sample.next a := by decide
        exact this a ha h)

def passA : Info := ⟨1, "G/A", [gMain]⟩
def passB : Info := ⟨2, "Sub/B", [gMain, gSub]⟩
def sampleTr : List ETr := [⟨some passA, some passB, ⟨"A/out", "B/in", "img"⟩⟩, ⟨none, some passA, ⟨"", "A/in", "img2"⟩⟩]

/-- A cluster within another is darker. -/
example : shades 0 (Result.get (displayTransitions { withGroups := true, withColours := true } sampleTr []) "") =
    [(0, some 0), (1, some 1)] := by decide +kernel

/-- The text of transitions. -/
example : Result.get (displayTransitions { withGroups := true } sampleTr []) "" =
    [.digraph none, .cluster 0 "G" none, .cluster 1 "Sub" none, .node "Sub/B" .ellipse none none, .close,
      .node "G/A" .ellipse none none,
      .node "A/out\\ntransition to\\nB/in" .box none none, .edge "G/A" "A/out\\ntransition to\\nB/in" "img" none,
      .edge "A/out\\ntransition to\\nB/in" "Sub/B" "img" none, .close,
      .node "ExternalSource" .ellipse none none,
      .node "\\ntransition to\\nA/in" .box none none, .edge "ExternalSource" "\\ntransition to\\nA/in" "img2" none,
      .edge "\\ntransition to\\nA/in" "G/A" "img2" none, .close] := by decide +kernel

theorem sampleTr_ok : (∀ i ∈ ends sampleTr, i.group ≠ []) ∧ GroupNames (ends sampleTr) ∧ PassNames (ends sampleTr)
    ∧ ∀ x ∈ sampleTr, ∀ i ∈ ends sampleTr, i.name ≠ tboxName x.tr := by
  refine ⟨by decide, ?_, by unfold PassNames; decide, by decide⟩
  intro p g h
  have hsub : ∀ p, IsGroup (ends sampleTr) p → IsGroup ([1, 2, 3, 4].map sample.info) p := by
    rintro p ⟨h0, i, hi, hp⟩
    have : ∀ i ∈ ends sampleTr, i ∈ [1, 2, 3, 4].map sample.info := by decide
    exact ⟨h0, i, this i hi, hp⟩
  obtain ⟨h1, h2⟩ := sample_groups p g (hsub _ h)
  exact ⟨h1, fun q k hk => h2 q k (hsub _ hk)⟩

/-- The hypotheses of `transitions_exported_partial` and `transitions_stream_malformed` hold of it. -/
example : WellFormed (Result.get (displayTransitions { withGroups := true } sampleTr []) "")
    ∧ ¬ WellFormed (streamTransitions { withGroups := true } sampleTr []) :=
  ⟨(transitions_exported_partial _ rfl sampleTr [] sampleTr_ok.1 sampleTr_ok.2.1 sampleTr_ok.2.2.1 sampleTr_ok.2.2.2).1,
    transitions_stream_malformed _ rfl sampleTr [] sampleTr_ok.1 sampleTr_ok.2.1 sampleTr_ok.2.2.1 sampleTr_ok.2.2.2 (by decide)⟩

/-- The hypotheses of `split_exported_partial` hold of `sample`. -/
example : ∃ body, Result.get (displayPasses { splitGroups := true } sample 4) "Sub" = .digraph (some "Sub") :: body ++ [.close] := by
  obtain ⟨⟨b, e, -⟩, -⟩ := split_exported_partial { splitGroups := true } rfl sample [1, 2, 3, 4] sample_nodes sample_groups
    (by decide) sample_boxes 4 (by decide) [gMain] gSub ⟨3, ⟨by decide, .inr ⟨1, by decide, by decide⟩⟩, by decide⟩
  exact ⟨b, e⟩

/-! ## Negations -/

/-- The hypothesis on names of groups is needed: groups Sub of A and Sub of B, each with one pass, get one stream. The text of the
first is repeated in the cluster of the second: pass x is in the text twice, and the text of Sub isn't that of one cluster. -/
theorem same_name_mixed :
    let x : Info := ⟨1, "Sub/x", [gMain, ⟨1, "A"⟩, ⟨2, "Sub"⟩]⟩
    let y : Info := ⟨2, "Sub/y", [gMain, ⟨3, "B"⟩, ⟨4, "Sub"⟩]⟩
    ((Result.get (displayTransitions { withGroups := true } [⟨some x, some y, ⟨"o", "i", "d"⟩⟩] []) "").filter
      (fun l => decide (l = .node "Sub/x" .ellipse none none))).length = 2 := by decide +kernel

/-- An end outside of the graph is declared as "ExternalSource" even if it is the destination; the edge goes to
"ExternalDestination", that isn't declared. -/
theorem external_destination_undeclared :
    let text := Result.get (displayTransitions {} [⟨some passA, none, ⟨"A/out", "", "img"⟩⟩] []) ""
    Line.node "ExternalSource" .ellipse none none ∈ text
    ∧ (∃ l ∈ text, ∃ a d, l = .edge a "ExternalDestination" d none)
    ∧ ∀ l ∈ text, ∀ s i c, l ≠ .node "ExternalDestination" s i c := by
  refine ⟨by decide +kernel, ⟨.edge "A/out\\ntransition to\\n" "ExternalDestination" "img" none, by decide +kernel, _, _, rfl⟩, ?_⟩
  have h : Result.get (displayTransitions {} [⟨some passA, none, ⟨"A/out", "", "img"⟩⟩] []) "" =
      [.digraph none, .node "G/A" .ellipse none none, .node "ExternalSource" .ellipse none none,
        .node "A/out\\ntransition to\\n" .box none none, .edge "G/A" "A/out\\ntransition to\\n" "img" none,
        .edge "A/out\\ntransition to\\n" "ExternalDestination" "img" none, .close] := by decide +kernel
  rw [h]
  intro l hl s i c e
  subst e
  simp at hl

/-- With `splitGroups`, transitions from or to outside of the graph are in no text. -/
theorem split_loses_external :
    ((displayTransitions { splitGroups := true } [⟨none, some passA, ⟨"", "A/in", "img2"⟩⟩] []).flatMap (·.2)).filter (·.isEdge) = [] := by
  decide +kernel

end Verif.Dot
