import Verif.Lemmas.DotText
import Verif.Props.Dot
import Verif.Props.DotTrans
import Verif.Props.DotNeg
/-!
C102: the exported text, read as DOT.
-/
namespace Verif.Dot

/-! ### Streams of groups -/

mutual
/-- The streams of the groups hold the lines of the groups. -/
def TTree.Sim : TTree → Tree → Prop
  | .mk s ns ks, .mk ls ns' ks' => Holds s ls ∧ ns = ns' ∧ ks.Sim ks'
def TForest.Sim : TForest → Forest → Prop
  | .nil, .nil => True
  | .cons g t r, .cons g' t' r' => g = g' ∧ Quotable g.name ∧ t.Sim t' ∧ r.Sim r'
  | .nil, .cons .. => False
  | .cons .., .nil => False
end

theorem sim_empty : TTree.empty.Sim Tree.empty := by
  simp only [TTree.empty, Tree.empty, TTree.Sim, TForest.Sim]
  exact ⟨.new, trivial, trivial⟩

theorem forest_update {g : Grp} (hg : Quotable g.name) {F : TTree → TTree} {F' : Tree → Tree}
    (hF : ∀ t t', t.Sim t' → (F t).Sim (F' t')) : ∀ (r : TForest) (r' : Forest), r.Sim r' → (r.update g F).Sim (r'.update g F')
  | .nil, .nil, _ => by
    simp only [TForest.update, Forest.update, TForest.Sim]
    exact ⟨trivial, hg, hF _ _ sim_empty, trivial⟩
  | .cons h t r, .cons h' t' r', hs => by
    simp only [TForest.Sim] at hs
    obtain ⟨rfl, hq, ht, hr⟩ := hs
    simp only [TForest.update, Forest.update]
    by_cases e : h = g
    · rw [if_pos e, if_pos e]
      simp only [TForest.Sim]
      exact ⟨trivial, hq, hF _ _ ht, hr⟩
    · rw [if_neg e, if_neg e]
      simp only [TForest.Sim]
      exact ⟨trivial, hq, ht, forest_update hg hF r r' hr⟩
  | .nil, .cons .., hs => by simp only [TForest.Sim] at hs
  | .cons .., .nil, hs => by simp only [TForest.Sim] at hs

theorem tree_update {f : Stream × List String → Stream × List String} {f' : List Line × List String → List Line × List String}
    (hf : ∀ s ls ns, Holds s ls → Holds (f (s, ns)).1 (f' (ls, ns)).1 ∧ (f (s, ns)).2 = (f' (ls, ns)).2) :
    ∀ (p : Path), (∀ g ∈ p, Quotable g.name) → ∀ (t : TTree) (t' : Tree), t.Sim t' → (t.update f p).Sim (t'.update f' p)
  | [], _, .mk s ns ks, .mk ls ns' ks', h => by
    simp only [TTree.Sim] at h
    obtain ⟨h1, rfl, h3⟩ := h
    simp only [TTree.update, Tree.update, TTree.Sim]
    exact ⟨(hf s ls ns h1).1, (hf s ls ns h1).2, h3⟩
  | g :: p, hp, .mk s ns ks, .mk ls ns' ks', h => by
    simp only [TTree.Sim] at h
    obtain ⟨h1, rfl, h3⟩ := h
    simp only [TTree.update, Tree.update, TTree.Sim]
    exact ⟨h1, trivial, forest_update (hp g List.mem_cons_self)
      (fun t t' => tree_update hf p (fun g hg => hp g (List.mem_cons_of_mem _ hg)) t t') ks ks' h3⟩

theorem node_sim (cfg : Config) {p : Path} (hp : ∀ g ∈ p, Quotable g.name) {name : String} (hn : Quotable name) (shape : Shape)
    (id : Option Nat) (colour : Colour) {t : TTree} {t' : Tree} (h : t.Sim t') :
    (tdisplayNode cfg p name shape id colour t).Sim (displayNode cfg p name shape id colour t') := by
  refine tree_update (fun s ls ns hs => ?_) p hp t t' h
  simp only
  by_cases e : name ∈ ns
  · rw [if_pos e, if_pos e]; exact ⟨hs, rfl⟩
  · rw [if_neg e, if_neg e]; exact ⟨hs.row (shows_node hn ..), rfl⟩

theorem edge_sim (cfg : Config) {p : Path} (hp : ∀ g ∈ p, Quotable g.name) {src dst label : String} (hs : Quotable src)
    (hd : Quotable dst) (hl : Quotable label) (colour : Colour) {t : TTree} {t' : Tree} (h : t.Sim t') :
    (tdisplayEdge cfg p src dst label colour t).Sim (displayEdge cfg p src dst label colour t') := by
  refine tree_update (fun s ls ns h => ?_) p hp t t' h
  exact ⟨h.row (shows_edge hs hd hl _), rfl⟩

theorem getLast_append {a b : List Char} (h : b ≠ []) : (a ++ b).getLast? = b.getLast? := by
  rw [List.getLast?_append]
  cases e : b.getLast? with
  | none => exact absurd (List.getLast?_eq_none_iff.1 e) h
  | some x => rfl

/-- Names after other text. -/
theorem quotable_append {a b : String} (ha : '"' ∉ a.toList) (ha' : '\n' ∉ a.toList) (hl : a.toList.getLast? ≠ some '\\')
    (hb : Quotable b) : Quotable (a ++ b) := by
  refine ⟨?_, ?_, ?_⟩
  · rw [String.toList_append]; exact not_mem_append' ha hb.quote
  · rw [String.toList_append]; exact not_mem_append' ha' hb.line
  · rw [String.toList_append]
    by_cases e : b.toList = []
    · rw [e, List.append_nil]; exact hl
    · rw [getLast_append e]; exact hb.last

theorem boxName_quotable {t : Tr} (h : t.Named) : Quotable (boxName t) :=
  quotable_append (by decide) (by decide) (by decide) h.input

theorem tboxName_quotable {t : Tr} (h : t.Named) : Quotable (tboxName t) := by
  unfold tboxName
  refine quotable_append ?_ ?_ ?_ h.input
  · rw [String.toList_append]; exact not_mem_append' h.output.quote (by decide)
  · rw [String.toList_append]; exact not_mem_append' h.output.line (by decide)
  · rw [String.toList_append, getLast_append (by decide)]; decide

theorem transition_sim (cfg : Config) {cur : Path} (hp : ∀ g ∈ cur, Quotable g.name) {src dst : String} (hs : Quotable src)
    (hd : Quotable dst) (colour : Colour) {t : TTree} {t' : Tree} {x : Tr} (hx : x.Named) (h : t.Sim t') :
    (tprintTransition cfg cur src dst colour t x).Sim (printTransition cfg cur src dst colour t' x) :=
  edge_sim cfg hp (boxName_quotable hx) hd hx.data colour
    (edge_sim cfg hp hs (boxName_quotable hx) hx.data colour (node_sim cfg hp (boxName_quotable hx) _ _ _ h))

theorem transitions_sim (cfg : Config) {cur : Path} (hp : ∀ g ∈ cur, Quotable g.name) {src dst : String} (hs : Quotable src)
    (hd : Quotable dst) (colour : Colour) : ∀ (xs : List Tr), (∀ x ∈ xs, x.Named) → ∀ {t : TTree} {t' : Tree}, t.Sim t' →
    (xs.foldl (tprintTransition cfg cur src dst colour) t).Sim (xs.foldl (printTransition cfg cur src dst colour) t')
  | [], _, _, _, h => h
  | x :: xs, hx, _, _, h => transitions_sim cfg hp hs hd colour xs (fun y hy => hx y (List.mem_cons_of_mem _ hy))
      (transition_sim cfg hp hs hd colour (hx x List.mem_cons_self) h)

theorem pass_sim (cfg : Config) {i : Info} (hi : i.Named) {t : TTree} {t' : Tree} (h : t.Sim t') :
    (tdisplayPass cfg i t).Sim (displayPass cfg i t') := node_sim cfg hi.group hi.name _ _ _ h

theorem common_quotable {i : Info} (hi : i.Named) (q : Path) : ∀ g ∈ common i.group q, Quotable g.name :=
  fun g hg => hi.group g ((common_left i.group q).subset hg)

/-- The names of an edge. -/
structure EdgeNamed (G : Graph) (a b : Nat) : Prop where
  src : (G.info a).Named
  dst : (G.info b).Named
  views : ∀ x ∈ G.views a b, x.Named
  buffers : ∀ x ∈ G.buffers a b, x.Named

theorem printEdge_sim (cfg : Config) (G : Graph) {e : Nat × Nat} (he : EdgeNamed G e.1 e.2) {t : TTree} {t' : Tree} (h : t.Sim t') :
    (tprintEdge cfg G t e).Sim (printEdge cfg G t' e) := by
  have hp := common_quotable he.src (G.info e.2).group
  refine transitions_sim cfg hp he.src.name he.dst.name .buf _ (fun x hx => he.buffers x ((sortTr_perm _).subset hx)) ?_
  refine transitions_sim cfg hp he.src.name he.dst.name .img _ (fun x hx => he.views x ((sortTr_perm _).subset hx)) ?_
  exact pass_sim cfg he.dst (pass_sim cfg he.src h)

theorem edges_sim (cfg : Config) (G : Graph) : ∀ (es : List (Nat × Nat)), (∀ e ∈ es, EdgeNamed G e.1 e.2) →
    ∀ {t : TTree} {t' : Tree}, t.Sim t' → (es.foldl (tprintEdge cfg G) t).Sim (es.foldl (printEdge cfg G) t')
  | [], _, _, _, h => h
  | e :: es, he, _, _, h =>
    edges_sim cfg G es (fun x hx => he x (List.mem_cons_of_mem _ hx)) (printEdge_sim cfg G (he e List.mem_cons_self) h)

/-! ### The result -/

/-- The streams of the result hold its lines. -/
def RSim : TResult → Result → Prop
  | [], [] => True
  | (k, s) :: m, (k', ls) :: m' => k = k' ∧ Holds s ls ∧ RSim m m'
  | [], _ :: _ => False
  | _ :: _, [] => False

theorem change_sim {ls : List Line} {f : Stream → Stream} (k : String) (hf : ∀ s l, Holds s l → Holds (f s) (l ++ ls)) :
    ∀ (m : TResult) (m' : Result), RSim m m' → RSim (m.change k f) (m'.add k ls)
  | [], [], _ => ⟨rfl, by simpa using hf _ _ .new, trivial⟩
  | (k1, s) :: m, (k2, l) :: m', ⟨e, h1, h2⟩ => by
    subst e
    simp only [TResult.change, Result.add]
    by_cases e : k1 = k
    · rw [if_pos e, if_pos e]; exact ⟨rfl, hf _ _ h1, h2⟩
    · rw [if_neg e, if_neg e]; exact ⟨rfl, h1, change_sim k hf m m' h2⟩

theorem get_sim (k : String) : ∀ (m : TResult) (m' : Result), RSim m m' → Shows (m.get k) (m'.get k)
  | [], [], _ => .nil
  | (k1, s) :: m, (k2, l) :: m', ⟨e, h1, h2⟩ => by
    subst e
    have ih := get_sim k m m' h2
    simp only [TResult.get, Result.get, List.lookup_cons] at ih ⊢
    by_cases e : (k == k1) = true
    · simp only [e]; exact h1.text
    · simp only [e]; exact ih

theorem opening_sim (cfg : Config) (level : Nat) {g : Option Grp} (hg : ∀ x, g = some x → Quotable x.name) {s : Stream}
    {l : List Line} (h : Holds s l) : Holds (topening cfg level g s) (l ++ opening cfg level g) := by
  unfold topening opening
  cases g with
  | none =>
    by_cases e : cfg.withGroups = true
    · simp only [if_pos e]; exact (h.put shows_digraph).indent 2
    · simp only [if_neg e]; exact h.put shows_digraph
  | some g =>
    by_cases e : cfg.withGroups = true
    · simp only [if_pos e]; exact (h.put (shows_cluster cfg level (hg g rfl))).indent 2
    · simp only [if_neg e, List.append_nil]; exact h

theorem closing_sim (cfg : Config) {g : Option Grp} {global own : List Char} {globalL ownL : List Line} (hG : Shows global globalL)
    (hO : Shows own ownL) {s : Stream} {l : List Line} (h : Holds s l) :
    Holds (tclosing cfg global own g s) (l ++ (ownL ++ closing cfg globalL g)) := by
  have base : Holds ((if cfg.withGroups then s.indent (-2) else s).put own) (l ++ ownL) := by
    by_cases e : cfg.withGroups = true
    · rw [if_pos e]; exact (h.indent _).put hO
    · rw [if_neg e]; exact h.put hO
  rw [← List.append_assoc]
  cases g with
  | none =>
    simp only [tclosing, closing]
    rw [← List.append_assoc]
    exact (base.put hG).put shows_close
  | some g =>
    simp only [tclosing, closing]
    by_cases e : cfg.withGroups = true
    · rw [if_pos e] at base; simp only [e, if_true]; exact base.put shows_close
    · simp only [if_neg e, List.append_nil] at base ⊢; exact base

theorem split_sim {g : Option Grp} (hg : ∀ x, g = some x → Quotable x.name) {own : List Char} {ownL : List Line}
    (hO : Shows own ownL) {m : TResult} {m' : Result} (h : RSim m m') : RSim (tsplit g own m) (splitText g ownL m') := by
  cases g with
  | none => exact h
  | some g =>
    refine change_sim g.name (fun s l hs => ?_) m m' h
    have := ((hs.put (shows_named (hg g rfl))).put hO).put shows_close
    simpa [List.append_assoc] using this

mutual
theorem write_sim (cfg : Config) : ∀ (t : TTree) (t' : Tree), t.Sim t' → ∀ (g : Option Grp), (∀ x, g = some x → Quotable x.name) →
    ∀ (level : Nat) (global : List Char) (globalL : List Line), Shows global globalL → ∀ (m : TResult) (m' : Result), RSim m m' →
    RSim (t.write cfg g level global m) (t'.write cfg g level globalL m')
  | .mk s ns ks, .mk ls ns' ks', h, g, hg, level, global, globalL, hG, m, m', hm => by
    simp only [TTree.Sim] at h
    obtain ⟨h1, -, h3⟩ := h
    simp only [TTree.write, Tree.write]
    by_cases e : cfg.splitGroups = true
    · rw [if_pos e, if_pos e]
      exact forest_write_sim cfg ks ks' h3 _ _ _ _ (split_sim hg h1.text hm)
    · rw [if_neg e, if_neg e]
      refine change_sim _ (fun s l hs => closing_sim cfg hG h1.text hs) _ _ ?_
      refine forest_write_sim cfg ks ks' h3 _ _ _ _ ?_
      exact change_sim _ (fun s l hs => opening_sim cfg level hg hs) _ _ hm
theorem forest_write_sim (cfg : Config) : ∀ (r : TForest) (r' : Forest), r.Sim r' → ∀ (key : Option String) (level : Nat)
    (m : TResult) (m' : Result), RSim m m' → RSim (r.write cfg key level m) (r'.write cfg key level m')
  | .nil, .nil, _, _, _, _, _, hm => hm
  | .cons g t r, .cons g' t' r', h, key, level, m, m', hm => by
    simp only [TForest.Sim] at h
    obtain ⟨rfl, hq, ht, hr⟩ := h
    have h1 := write_sim cfg t t' ht (some g) (fun x hx => by cases hx; exact hq) level [] [] .nil m m' hm
    simp only [TForest.write, Forest.write]
    refine forest_write_sim cfg r r' hr key level _ _ ?_
    cases key with
    | none => exact h1
    | some k => exact change_sim k (fun s l hs => hs.put (get_sim g.name _ _ h1)) _ _ h1
  | .nil, .cons .., hs, _, _, _, _, _ => by simp only [TForest.Sim] at hs
  | .cons .., .nil, hs, _, _, _, _, _ => by simp only [TForest.Sim] at hs
end

/-- Streams and lines, paired. -/
theorem rsim_pairs : ∀ (m : TResult) (m' : Result), RSim m m' → ∃ z : List (String × Stream × List Line),
    m = z.map (fun x => (x.1, x.2.1)) ∧ m' = z.map (fun x => (x.1, x.2.2)) ∧ ∀ x ∈ z, Holds x.2.1 x.2.2
  | [], [], _ => ⟨[], rfl, rfl, fun _ h => by cases h⟩
  | (k1, s) :: m, (k2, l) :: m', ⟨e, h1, h2⟩ => by
    subst e
    obtain ⟨z, rfl, rfl, hz⟩ := rsim_pairs m m' h2
    exact ⟨(k1, s, l) :: z, rfl, rfl, fun x hx => (List.mem_cons.1 hx).elim (fun e => e ▸ h1) (hz x)⟩

theorem pairs_show : ∀ (z : List (String × Stream × List Line)), (∀ x ∈ z, Holds x.2.1 x.2.2) →
    Shows (z.flatMap (·.2.1.text)) (z.flatMap (·.2.2))
  | [], _ => .nil
  | x :: z, h => by
    rw [List.flatMap_cons, List.flatMap_cons]
    exact (h x List.mem_cons_self).text.append (pairs_show z fun y hy => h y (List.mem_cons_of_mem _ hy))

theorem sorted_pairs {m : TResult} {m' : Result} (h : RSim m m') : ∃ z : List (String × Stream × List Line),
    m.mergeSort (fun a b => decide (a.1 ≤ b.1)) = z.map (fun x => (x.1, x.2.1)) ∧
    m'.mergeSort (fun a b => decide (a.1 ≤ b.1)) = z.map (fun x => (x.1, x.2.2)) ∧ ∀ x ∈ z, Holds x.2.1 x.2.2 := by
  obtain ⟨z, rfl, rfl, hz⟩ := rsim_pairs m m' h
  refine ⟨z.mergeSort (fun a b => decide (a.1 ≤ b.1)), ?_, ?_, fun x hx => hz x ((List.mergeSort_perm _ _).subset hx)⟩
  · exact (List.map_mergeSort (f := fun x : String × Stream × List Line => (x.1, x.2.1))
      (r := fun a b => decide (a.1 ≤ b.1)) (s := fun a b => decide (a.1 ≤ b.1)) (fun _ _ _ _ => rfl)).symm
  · exact (List.map_mergeSort (f := fun x : String × Stream × List Line => (x.1, x.2.2))
      (r := fun a b => decide (a.1 ≤ b.1)) (s := fun a b => decide (a.1 ≤ b.1)) (fun _ _ _ _ => rfl)).symm

/-- The text of the passes shows its lines. -/
theorem passes_shown (cfg : Config) (G : Graph) (fuel : Nat)
    (hN : ∀ e ∈ (visitRoot G.next fuel (G.next 0) []).2, EdgeNamed G e.1 e.2) :
    Shows (textPasses cfg G fuel) (streamPasses cfg G fuel) := by
  have h : RSim (tdisplayPasses cfg G fuel) (displayPasses cfg G fuel) :=
    write_sim cfg _ _ (edges_sim cfg G _ hN sim_empty) none (fun _ h => by cases h) 0 [] [] .nil [] [] trivial
  unfold textPasses streamPasses
  simp only
  by_cases e : cfg.splitGroups = true
  · rw [if_pos e, if_pos e]
    obtain ⟨z, h1, h2, h3⟩ := sorted_pairs h
    rw [h1, h2, List.filter_map, List.filter_map, List.flatMap_map, List.flatMap_map]
    exact pairs_show _ fun x hx => h3 x (List.mem_filter.1 hx).1
  · rw [if_neg e, if_neg e]
    exact get_sim "" _ _ h

theorem named_edges {G : Graph} {U : List Nat} (h : Nodes G U) (hN : Named G U) {fuel : Nat} (hf : U.length ≤ fuel) :
    ∀ e ∈ (visitRoot G.next fuel (G.next 0) []).2, EdgeNamed G e.1 e.2 := by
  intro e he
  obtain ⟨a, ha, he⟩ := List.mem_flatMap.1 ((edges_printed_once h hf).subset he)
  obtain ⟨b, hb, rfl⟩ := List.mem_map.1 he
  have hx := (hN a ha).2 b hb
  exact ⟨(hN a ha).1, (hN b (h.closed a (.inr ha) b hb)).1, fun x h => hx x (List.mem_append_left _ h),
    fun x h => hx x (List.mem_append_right _ h)⟩

/-- C102: read as DOT, the exported text of the passes says what its lines are meant to say, whatever the configuration. -/
theorem passes_read_partial (cfg : Config) (G : Graph) (U : List Nat) (h : Nodes G U) (hN : Named G U) (fuel : Nat)
    (hf : U.length ≤ fuel) : readDot (textPasses cfg G fuel) = some ((streamPasses cfg G fuel).flatMap Line.items) :=
  shows_read (passes_shown cfg G fuel (named_edges h hN hf))

/-! ### Transitions -/

theorem attach_sim (cfg : Config) {i : Option Info} (hi : ∀ j, i = some j → j.Named) {t : TTree} {t' : Tree} (h : t.Sim t') :
    (tdisplayAttachPass cfg t i).Sim (displayAttachPass cfg t' i) := by
  cases i with
  | none => exact node_sim cfg (fun _ h => by cases h) ⟨by decide, by decide, by decide⟩ _ _ _ h
  | some i => exact pass_sim cfg (hi i rfl) h

theorem attaches_sim (cfg : Config) : ∀ (xs : List ETr), (∀ x ∈ xs, x.Named) → ∀ {t : TTree} {t' : Tree}, t.Sim t' →
    (xs.foldl (fun t x => tdisplayAttachPass cfg (tdisplayAttachPass cfg t x.src) x.dst) t).Sim
      (xs.foldl (fun t x => displayAttachPass cfg (displayAttachPass cfg t x.src) x.dst) t')
  | [], _, _, _, h => h
  | x :: xs, hx, _, _, h => attaches_sim cfg xs (fun y hy => hx y (List.mem_cons_of_mem _ hy))
      (attach_sim cfg (hx x List.mem_cons_self).dst (attach_sim cfg (hx x List.mem_cons_self).src h))

theorem tedge_sim (cfg : Config) (colour : Colour) {s : TTree × Stream} {s' : Tree × List Line} {x : ETr} (hx : x.Named)
    (h : s.1.Sim s'.1) (h' : Holds s.2 s'.2) :
    (tdisplayTransitionEdge cfg colour s x).1.Sim (displayTransitionEdge cfg colour s' x).1 ∧
    Holds (tdisplayTransitionEdge cfg colour s x).2 (displayTransitionEdge cfg colour s' x).2 := by
  obtain ⟨xs, xd, tr⟩ := x
  have hb := tboxName_quotable hx.tr
  have ext : Quotable "ExternalSource" := ⟨by decide, by decide, by decide⟩
  have ext' : Quotable "ExternalDestination" := ⟨by decide, by decide, by decide⟩
  obtain ⟨t, g⟩ := s
  obtain ⟨t', g'⟩ := s'
  simp only at h h'
  have hs := h
  cases t with | mk st ns ks =>
  cases t' with | mk ls ns' ks' =>
  simp only [TTree.Sim] at hs
  obtain ⟨h1, rfl, h3⟩ := hs
  have sim : TTree.Sim (.mk st (if tboxName tr ∈ ns then ns else tboxName tr :: ns) ks)
      (.mk ls (if tboxName tr ∈ ns then ns else tboxName tr :: ns) ks') := by
    simp only [TTree.Sim]
    exact ⟨h1, trivial, h3⟩
  have out : ∀ (src dst : String), Quotable src → Quotable dst → ∀ c : Option Colour,
      Holds (((if tboxName tr ∈ ns then g else g.row (nodeText (tboxName tr) .box none c)).row
            (edgeText src (tboxName tr) tr.data c)).row (edgeText (tboxName tr) dst tr.data c))
        (g' ++ (if tboxName tr ∈ ns then [] else [Line.node (tboxName tr) .box none c]) ++
          [Line.edge src (tboxName tr) tr.data c, Line.edge (tboxName tr) dst tr.data c]) := by
    intro src dst hs hd c
    have e1 := shows_edge hs hb hx.tr.data c
    have e2 := shows_edge hb hd hx.tr.data c
    by_cases e : tboxName tr ∈ ns
    · simp only [if_pos e, List.append_nil]
      have := (h'.row e1).row e2
      simpa [List.append_assoc] using this
    · simp only [if_neg e]
      have := ((h'.row (shows_node hb .box none c)).row e1).row e2
      simpa [List.append_assoc] using this
  cases xs with
  | none =>
    cases xd with
    | none => exact ⟨sim, out _ _ ext ext' _⟩
    | some b => exact ⟨sim, out _ _ ext (hx.dst b rfl).name _⟩
  | some a =>
    cases xd with
    | none => exact ⟨sim, out _ _ (hx.src a rfl).name ext' _⟩
    | some b =>
      refine ⟨?_, h'⟩
      have hp := common_quotable (hx.src a rfl) b.group
      exact edge_sim cfg hp hb (hx.dst b rfl).name hx.tr.data colour
        (edge_sim cfg hp (hx.src a rfl).name hb hx.tr.data colour (node_sim cfg hp hb _ _ _ h))

theorem tedges_sim (cfg : Config) (colour : Colour) : ∀ (xs : List ETr), (∀ x ∈ xs, x.Named) → ∀ (s : TTree × Stream)
    (s' : Tree × List Line), s.1.Sim s'.1 → Holds s.2 s'.2 →
    (xs.foldl (tdisplayTransitionEdge cfg colour) s).1.Sim (xs.foldl (displayTransitionEdge cfg colour) s').1 ∧
    Holds (xs.foldl (tdisplayTransitionEdge cfg colour) s).2 (xs.foldl (displayTransitionEdge cfg colour) s').2
  | [], _, _, _, h, h' => ⟨h, h'⟩
  | x :: xs, hx, s, s', h, h' => by
    obtain ⟨h1, h2⟩ := tedge_sim cfg colour (hx x List.mem_cons_self) h h'
    exact tedges_sim cfg colour xs (fun y hy => hx y (List.mem_cons_of_mem _ hy)) _ _ h1 h2

theorem transitions_rsim (cfg : Config) (views buffers : List ETr) (hN : ∀ x ∈ views ++ buffers, x.Named) :
    RSim (tdisplayTransitions cfg views buffers) (displayTransitions cfg views buffers) := by
  have h0 := attaches_sim cfg _ hN sim_empty
  obtain ⟨h1, h2⟩ := tedges_sim cfg .img views (fun x hx => hN x (List.mem_append_left _ hx)) (_, {}) (_, []) h0 .new
  obtain ⟨h3, h4⟩ := tedges_sim cfg .buf buffers (fun x hx => hN x (List.mem_append_right _ hx)) _ _ h1 h2
  exact write_sim cfg _ _ h3 none (fun _ h => by cases h) 0 _ _ h4.text [] [] trivial

/-- C102, for the transitions: the main text of the result… -/
theorem transitions_read_partial (cfg : Config) (views buffers : List ETr) (hN : ∀ x ∈ views ++ buffers, x.Named) :
    (∀ name, readDot ((tdisplayTransitions cfg views buffers).get name)
      = some (((displayTransitions cfg views buffers).get name).flatMap Line.items))
    ∧ readDot (textTransitions cfg views buffers) = some ((streamTransitions cfg views buffers).flatMap Line.items) := by
  have h := transitions_rsim cfg views buffers hN
  refine ⟨fun name => shows_read (get_sim name _ _ h), shows_read ?_⟩
  unfold textTransitions streamTransitions
  obtain ⟨z, h1, h2, h3⟩ := sorted_pairs h
  rw [h1, h2, List.flatMap_map, List.flatMap_map]
  exact pairs_show z h3

/-! ### What the statements say -/

theorem placed_line (l : Line) (st : List (Nat × String)) (r : List Item) :
    placed (st.map fun c => "cluster_" ++ toString c.1) (l.items ++ r) =
      (match l with
      | .cluster i n _ => placed ((st ++ [(i, n)]).map fun c => "cluster_" ++ toString c.1) r
      | .close => placed (st.dropLast.map fun c => "cluster_" ++ toString c.1) r
      | .digraph _ => placed (st.map fun c => "cluster_" ++ toString c.1) r
      | l => (l.items.map fun i => (st.map fun c => "cluster_" ++ toString c.1, i)) ++ placed (st.map fun c => "cluster_" ++ toString c.1) r) := by
  cases l with
  | digraph n => rfl
  | cluster i n c => cases c <;> simp [Line.items, placed]
  | close => simp [Line.items, placed, List.map_dropLast]
  | node n s i c => rfl
  | edge a b l c => rfl

/-- Statements are where their lines are. -/
theorem placed_items : ∀ (ls : List Line) (st : List (Nat × String)),
    placed (st.map fun c => "cluster_" ++ toString c.1) (ls.flatMap Line.items) =
      (located st ls).flatMap fun x => x.2.items.map fun i => (x.1.map fun c => "cluster_" ++ toString c.1, i)
  | [], _ => rfl
  | l :: ls, st => by
    rw [List.flatMap_cons, placed_line]
    cases l with
    | digraph n => exact placed_items ls st
    | cluster i n c => exact placed_items ls _
    | close => exact placed_items ls _
    | node n s i c => simp only [located, List.flatMap_cons]; rw [placed_items ls st]
    | edge a b l c => simp only [located, List.flatMap_cons]; rw [placed_items ls st]

theorem nesting_items : ∀ (ls : List Line) (d : Nat), nesting (ls.flatMap Line.items) d = balance ls d
  | [], _ => rfl
  | l :: ls, d => by
    rw [List.flatMap_cons]
    cases l with
    | digraph n => rfl
    | cluster i n c =>
      have := nesting_items ls (d + 1)
      cases c <;> simpa [Line.items, nesting, balance] using this
    | close =>
      simp only [Line.items, List.cons_append, List.nil_append, nesting, balance]
      rw [nesting_items ls (d - 1)]
    | node n s i c => exact nesting_items ls d
    | edge a b l c => exact nesting_items ls d

theorem graph_items {ls : List Line} (h : WellFormed ls) : DotGraph (ls.flatMap Line.items) := by
  obtain ⟨n, body, rfl, hb⟩ := h
  refine ⟨n, body.flatMap Line.items, ?_, by rw [nesting_items]; exact hb⟩
  simp [Line.items]

theorem located_is_plain : ∀ (ls : List Line) (st : List (Nat × String)), ∀ x ∈ located st ls, x.2.plain = true
  | [], _, _, h => by cases h
  | .digraph _ :: ls, st, x, h => located_is_plain ls st x h
  | .cluster .. :: ls, _, x, h => located_is_plain ls _ x h
  | .close :: ls, _, x, h => located_is_plain ls _ x h
  | .node .. :: ls, st, x, h => (List.mem_cons.1 h).elim (fun e => e ▸ rfl) (located_is_plain ls st x)
  | .edge .. :: ls, st, x, h => (List.mem_cons.1 h).elim (fun e => e ▸ rfl) (located_is_plain ls st x)

theorem isEllipse_node (n : String) (s : Shape) (i : Option Nat) (c : Option Colour) :
    ∀ y ∈ (Line.node n s i c).items, y.isEllipse = (Line.node n s i c).isEllipse := by
  intro y hy
  simp only [Line.items, List.mem_singleton] at hy
  subst hy
  cases s <;> simp [Item.isEllipse, Line.isEllipse, Shape.word]

theorem filter_items {p : Item → Bool} {q : Line → Bool} (hpq : ∀ l : Line, l.plain = true → ∀ y ∈ l.items, p y = q l) :
    ∀ (L : List (List (Nat × String) × Line)), (∀ x ∈ L, x.2.plain = true) →
    (L.flatMap itemsAt).filter (fun x => p x.2) = (L.filter (fun x => q x.2)).flatMap itemsAt
  | [], _ => rfl
  | x :: L, h => by
    rw [List.flatMap_cons, List.filter_append, filter_items hpq L fun y hy => h y (List.mem_cons_of_mem _ hy)]
    have hx := hpq x.2 (h x List.mem_cons_self)
    by_cases e : q x.2 = true
    · rw [List.filter_cons_of_pos (by exact e), List.flatMap_cons]
      congr 1
      refine List.filter_eq_self.2 fun y hy => ?_
      obtain ⟨z, hz, rfl⟩ := List.mem_map.1 hy
      exact (hx z hz).trans e
    · rw [List.filter_cons_of_neg (by exact e)]
      have : (itemsAt x).filter (fun x => p x.2) = [] := by
        refine List.filter_eq_nil_iff.2 fun y hy => ?_
        obtain ⟨z, hz, rfl⟩ := List.mem_map.1 hy
        exact fun c => e ((hx z hz).symm.trans c)
      rw [this, List.nil_append]

theorem edge_items : ∀ l : Line, l.plain = true → ∀ y ∈ l.items, y.isEdge = l.isEdge := by
  intro l hl y hy
  cases l with
  | node n s i c => simp only [Line.items, List.mem_singleton] at hy; subst hy; rfl
  | edge a b l c => simp only [Line.items, List.mem_singleton] at hy; subst hy; rfl
  | digraph n => cases hl
  | cluster i n c => cases hl
  | close => cases hl

theorem ellipse_items : ∀ l : Line, l.plain = true → ∀ y ∈ l.items, y.isEllipse = l.isEllipse := by
  intro l hl y hy
  cases l with
  | node n s i c => exact isEllipse_node n s i c y hy
  | edge a b l c => simp only [Line.items, List.mem_singleton] at hy; subst hy; rfl
  | digraph n => cases hl
  | cluster i n c => cases hl
  | close => cases hl

/-- C102. Read as DOT, the exported text of the passes is one graph with balanced blocks. Its edges are, each once, two for every
transition of every edge of the graph, through a box, labelled with the name of the data, in the clusters of the innermost group
both passes are in; its ellipses are, each once, the passes that have an edge, in the clusters of their groups, with their
identifiers if asked for. -/
theorem passes_text_partial (cfg : Config) (hs : cfg.splitGroups = false) (G : Graph) (U : List Nat) (h : Nodes G U) (hN : Named G U)
    (hG : GroupNames (U.map G.info))
    (hP : ∀ x ∈ U, ∀ y ∈ U, (G.info x).group = (G.info y).group → (G.info x).name = (G.info y).name → x = y)
    (hb : ∀ x ∈ U, ∀ s, (G.info x).name ≠ "Transition to\\n" ++ s) (fuel : Nat) (hf : U.length ≤ fuel) :
    ∃ items, readDot (textPasses cfg G fuel) = some items
    ∧ DotGraph items
    ∧ ((placed [] items).filter (·.2.isEdge)).Perm
        (U.flatMap fun a => (G.next a).flatMap fun b => (edgeLines cfg G a b).flatMap fun l =>
          l.items.map ((clusters cfg (common (G.info a).group (G.info b).group), ·)))
    ∧ ∃ shown : List Nat, shown.Nodup ∧ (∀ x, x ∈ shown ↔ Linked G U x) ∧
        ((placed [] items).filter (·.2.isEllipse)).Perm
          (shown.flatMap fun x => (passLine cfg (G.info x)).items.map ((clusters cfg (G.info x).group, ·))) := by
  obtain ⟨w, e, ⟨shown, s1, s2, s3⟩, -⟩ := passes_exported_partial cfg hs G U h hG hP hb fuel hf
  refine ⟨_, passes_read_partial cfg G U h hN fuel hf, graph_items w, ?_, shown, s1, s2, ?_⟩
  · have h1 := placed_items (streamPasses cfg G fuel) []
    have h2 := filter_items edge_items _ (located_is_plain (streamPasses cfg G fuel) [])
    have h3 := e.flatMap_right itemsAt
    rw [List.flatMap_assoc] at h3
    simp only [List.flatMap_assoc, List.flatMap_map] at h3
    refine List.Perm.trans (List.Perm.of_eq ?_) h3
    exact (congrArg _ h1).trans h2
  · have h1 := placed_items (streamPasses cfg G fuel) []
    have h2 := filter_items ellipse_items _ (located_is_plain (streamPasses cfg G fuel) [])
    have h3 := s3.flatMap_right itemsAt
    rw [List.flatMap_map] at h3
    refine List.Perm.trans (List.Perm.of_eq ?_) h3
    exact (congrArg _ h1).trans h2

/-- C102, for the transitions: the text named with the empty name is one graph; its edges are two for each transition, through a
box, where both ends are; its ellipses are the passes transitions are from or to, and the outside. -/
theorem transitions_text_partial (cfg : Config) (hs : cfg.splitGroups = false) (views buffers : List ETr)
    (hN : ∀ x ∈ views ++ buffers, x.Named) (hg : ∀ i ∈ ends (views ++ buffers), i.group ≠ [])
    (hG : GroupNames (ends (views ++ buffers))) (hP : PassNames (ends (views ++ buffers)))
    (hb : ∀ x ∈ views ++ buffers, ∀ i ∈ ends (views ++ buffers), i.name ≠ tboxName x.tr) :
    ∃ items, readDot ((tdisplayTransitions cfg views buffers).get "") = some items
    ∧ DotGraph items
    ∧ ((placed [] items).filter (·.2.isEdge)).Perm
        ((views.flatMap (transitionLines cfg .img) ++ buffers.flatMap (transitionLines cfg .buf)).flatMap itemsAt)
    ∧ ∃ shown : List (Option Info), shown.Nodup ∧ (∀ i, i ∈ shown ↔ ∃ x ∈ views ++ buffers, i = x.src ∨ i = x.dst) ∧
        ((placed [] items).filter (·.2.isEllipse)).Perm ((shown.map (endLine cfg)).flatMap itemsAt) := by
  obtain ⟨w, e, ⟨shown, s1, s2, s3⟩, -⟩ := transitions_exported_partial cfg hs views buffers hg hG hP hb
  refine ⟨_, (transitions_read_partial cfg views buffers hN).1 "", graph_items w, ?_, shown, s1, s2, ?_⟩
  · have h1 := placed_items (Result.get (displayTransitions cfg views buffers) "") []
    have h2 := filter_items edge_items _ (located_is_plain (Result.get (displayTransitions cfg views buffers) "") [])
    exact (List.Perm.of_eq ((congrArg _ h1).trans h2)).trans (e.flatMap_right itemsAt)
  · have h1 := placed_items (Result.get (displayTransitions cfg views buffers) "") []
    have h2 := filter_items ellipse_items _ (located_is_plain (Result.get (displayTransitions cfg views buffers) "") [])
    exact (List.Perm.of_eq ((congrArg _ h1).trans h2)).trans (s3.flatMap_right itemsAt)

/-! ### Examples -/

instance (s : String) : Decidable (Quotable s) :=
  decidable_of_iff ('"' ∉ s.toList ∧ '\n' ∉ s.toList ∧ s.toList.getLast? ≠ some '\\') ⟨fun h => ⟨h.1, h.2.1, h.2.2⟩, fun h => ⟨h.1, h.2, h.3⟩⟩
instance (t : Tr) : Decidable t.Named :=
  decidable_of_iff (Quotable t.output ∧ Quotable t.input ∧ Quotable t.data) ⟨fun h => ⟨h.1, h.2.1, h.2.2⟩, fun h => ⟨h.1, h.2, h.3⟩⟩
instance (i : Info) : Decidable i.Named :=
  decidable_of_iff (Quotable i.name ∧ ∀ g ∈ i.group, Quotable g.name) ⟨fun h => ⟨h.1, h.2⟩, fun h => ⟨h.1, h.2⟩⟩

/-- The names of the example of C80 can be quoted; with `sample_nodes` and `sample_groups` this meets the hypotheses. -/
theorem sample_named : Named sample [1, 2, 3, 4] := by
  unfold Named
  decide

/-- C102, of that example, with everything shown. -/
example : ∃ items, readDot (textPasses { withGroups := true, withColours := true, withIds := true } sample 4) = some items
    ∧ items.contains (.node "Sub/C" [("shape", "ellipse"), ("id", "3"), ("style", "filled"), ("fillcolor", "white"),
        ("color", "#00007f")]) = true := ⟨_, passes_read_partial _ sample _ sample_nodes sample_named 4 (by decide), by decide +kernel⟩

/-- Two passes, from the first of which the second reads an image. -/
def pair (first : String) : Graph where
  info n := if n = 1 then ⟨1, first, [gMain]⟩ else ⟨2, "C", [gMain]⟩
  next n := match n with | 0 => [1] | 1 => [2] | _ => []
  views a b := if (a, b) = (1, 2) then [⟨"out", "in", "img"⟩] else []
  buffers _ _ := []

/-- C102 fails for a name with a quote: the text isn't DOT… -/
theorem quote_unreadable : readDot (textPasses {} (pair "A\"B") 2) = none := by decide +kernel

/-- …or says something else: here a pass is shown as two nodes… -/
theorem quote_misread : (readDot (textPasses {} (pair "A\" []; \"B") 2)).map
    (fun items => items.filter fun i => match i with | .node .. => true | _ => false)
      = some [.node "A" [], .node "B" [("shape", "ellipse")], .node "C" [("shape", "ellipse")],
        .node "Transition to\\nin" [("shape", "box")], .node "A" []] := by decide +kernel

/-- …for one that ends with a backslash… -/
theorem backslash_unreadable : readDot (textPasses {} (pair "A\\") 2) = none := by decide +kernel

/-- …and for one of two lines, whose second is moved by the indentation. -/
theorem newline_misread : (readDot (textPasses { withGroups := true } (pair "A\nB") 2)).map
    (fun items => items.contains (.node "A\nB" [("shape", "ellipse")])) = some false := by decide +kernel

end Verif.Dot
