import Verif.Lemmas.Dependency
/-
C21 (dependencies through a resource), C22 (cache keys), C23 (overlap).
-/
namespace Verif.Deps
open Verif.Att

/-! ### C22 -/

theorem shift_or (p v : Nat) (hv : v < 2 ^ 32) : p <<< 32 ||| v = p * 2 ^ 32 + v := by
  rw [Nat.shiftLeft_eq, Nat.mul_comm, ← Nat.two_pow_add_eq_or_of_lt hv]

/-- C22, views. The cache key of a query determines the target pass and the view: all ids being 32-bit, two queries
with the same key have the same target pass id and view id. -/
theorem view_keys_distinct (p q v w : Nat) (hp : p < 2 ^ 32) (hq : q < 2 ^ 32) (hv : v < 2 ^ 32) (hw : w < 2 ^ 32)
    (h : viewKey p v = viewKey q w) : p = q ∧ v = w := by
  unfold viewKey at h
  rw [shift_or p v hv, shift_or q w hw, Nat.mod_eq_of_lt (by omega), Nat.mod_eq_of_lt (by omega)] at h
  omega

/-- C22, buffers (partial: handles below 2^32; the code keeps the 32 low bits). -/
theorem buffer_keys_distinct_partial (p q v w : Nat) (hp : p < 2 ^ 32) (hq : q < 2 ^ 32) (hv : v < 2 ^ 32)
    (hw : w < 2 ^ 32) (h : bufferKey p v = bufferKey q w) : p = q ∧ v = w := by
  unfold bufferKey at h
  have e : ∀ x : Nat, x < 2 ^ 32 → x &&& 0xFFFFFFFF = x := fun x hx => by
    rw [show (0xFFFFFFFF : Nat) = 2 ^ 32 - 1 from rfl, Nat.and_two_pow_sub_one_eq_mod, Nat.mod_eq_of_lt hx]
  rw [e v hv, e w hw] at h
  exact view_keys_distinct p q v w hp hq hv hw h

/-- The target pass is in the key, whatever the buffer. -/
theorem buffer_key_pass (p q v w : Nat) (hp : p < 2 ^ 32) (hq : q < 2 ^ 32) (h : bufferKey p v = bufferKey q w) :
    p = q := by
  unfold bufferKey at h
  have hl : ∀ x : Nat, x &&& 0xFFFFFFFF < 2 ^ 32 := fun x => by
    rw [show (0xFFFFFFFF : Nat) = 2 ^ 32 - 1 from rfl, Nat.and_two_pow_sub_one_eq_mod]
    exact Nat.mod_lt _ (by decide)
  exact (view_keys_distinct p q _ _ hp hq (hl v) (hl w) h).1

/-- C22 is false of buffers: handles that differ by a multiple of 2^32 share their key. -/
theorem buffer_keys_collide (p h : Nat) : bufferKey p h = bufferKey p (h + 2 ^ 32) := by
  unfold bufferKey
  have e : ∀ x : Nat, x &&& 0xFFFFFFFF = x % 2 ^ 32 := fun x => Nat.and_two_pow_sub_one_eq_mod x 32
  rw [e, e, Nat.add_mod_right]

/-! ### C23 -/

theorem covers_iff (v : View) (l m : Nat) :
    Covers v l m ↔ (getVirtualRange v.image v.viewType v.range).Has l m := by
  constructor
  · rintro ⟨sub, h1, h2⟩; exact (h1.has_iff l m).1 h2
  · intro h; exact ⟨_, virtual_designates _ _ _, h⟩

theorem intersecting_iff (a n b m : Nat) (hn : 0 < n) (hm : 0 < m) :
    intersecting a n b m = true ↔ ∃ x, (a ≤ x ∧ x < a + n) ∧ b ≤ x ∧ x < b + m := by
  unfold intersecting isInRange
  simp only [Bool.or_eq_true, Bool.and_eq_true, decide_eq_true_eq]
  constructor
  · rintro (⟨h1, h2⟩ | ⟨h1, h2⟩)
    · exact ⟨a, by omega⟩
    · exact ⟨b, by omega⟩
  · rintro ⟨x, h1, h2⟩
    omega

/-- C23 (partial: the code measures the second view with the layer count of the first one). Two views that designate
something, with the same number of layers or the first one not starting after the second one, are considered
overlapping iff they share data. -/
theorem overlap_iff_partial (v w : View)
    (hv : ∃ l m, Covers v l m) (hw : ∃ l m, Covers w l m)
    (hc : (getVirtualRange v.image v.viewType v.range).layers = (getVirtualRange w.image w.viewType w.range).layers
      ∨ (getVirtualRange v.image v.viewType v.range).baseLayer
          ≤ (getVirtualRange w.image w.viewType w.range).baseLayer) :
    overlappingViews v w = true ↔ ShareData v w := by
  unfold overlappingViews ShareData intersectingRanges
  simp only [covers_iff] at *
  generalize getVirtualRange v.image v.viewType v.range = a at *
  generalize getVirtualRange w.image w.viewType w.range = b at *
  obtain ⟨l1, m1, h1⟩ := hv
  obtain ⟨l2, m2, h2⟩ := hw
  unfold Range.Has at *
  simp only [Bool.and_eq_true, beq_iff_eq]
  refine and_congr_right fun _ => ?_
  rw [intersecting_iff _ _ _ _ (by omega) (by omega), intersecting_iff _ _ _ _ (by omega) (by omega)]
  constructor
  · rintro ⟨⟨x, hx⟩, y, hy⟩
    by_cases hab : a.baseLayer ≤ b.baseLayer
    · exact ⟨b.baseLayer, x, by omega⟩
    · exact ⟨a.baseLayer, x, by omega⟩
  · rintro ⟨l, m, h3, h4⟩
    refine ⟨⟨m, by omega⟩, ?_⟩
    by_cases hab : a.baseLayer ≤ b.baseLayer
    · exact ⟨b.baseLayer, by omega⟩
    · exact ⟨a.baseLayer, by omega⟩

/-- View of layers `[base, base + n)` of the first level of a 12 layer image. -/
def oView (id base n : Nat) : View := ⟨id, ⟨1, 37, 1, 12, 64, 64, 1⟩, .d2Array, 37, ⟨Aspect.color, 0, 1, base, n⟩⟩

example : ∃ l m, Covers (oView 1 2 3) l m := ⟨2, 0, (covers_iff _ _ _).2 (by decide)⟩

/-- C23 is false: layer 4 and layers 0 to 5 share layer 4, which is missed in this order and seen in the other. -/
theorem overlap_missed : ShareData (oView 1 4 1) (oView 2 0 6)
    ∧ overlappingViews (oView 1 4 1) (oView 2 0 6) = false
    ∧ overlappingViews (oView 2 0 6) (oView 1 4 1) = true :=
  ⟨⟨rfl, 4, 0, (covers_iff _ _ _).2 (by decide), (covers_iff _ _ _).2 (by decide)⟩, by decide, by decide⟩

/-- C23 is false: layers 4 to 9 and layer 0 share nothing but are considered overlapping in this order. -/
theorem overlap_invented : ¬ ShareData (oView 1 4 6) (oView 2 0 1)
    ∧ overlappingViews (oView 1 4 6) (oView 2 0 1) = true := by
  refine ⟨?_, by decide⟩
  rintro ⟨-, l, m, h1, h2⟩
  rw [covers_iff] at h1 h2
  have e1 : getVirtualRange (oView 1 4 6).image (oView 1 4 6).viewType (oView 1 4 6).range
    = ⟨Aspect.color, 0, 1, 4, 6⟩ := by decide
  have e2 : getVirtualRange (oView 2 0 1).image (oView 2 0 1).viewType (oView 2 0 1).range
    = ⟨Aspect.color, 0, 1, 0, 1⟩ := by decide
  rw [e1] at h1
  rw [e2] at h2
  unfold Range.Has at *
  simp only at *
  omega

/-! ### C21 -/

theorem has_ext {a b : Range} (ha : ∃ l m, a.Has l m) (h : ∀ l m, a.Has l m ↔ b.Has l m) :
    a.baseLayer = b.baseLayer ∧ a.layers = b.layers ∧ a.baseMip = b.baseMip ∧ a.levels = b.levels := by
  obtain ⟨l0, m0, h0⟩ := ha
  have h0' := (h l0 m0).1 h0
  unfold Range.Has at *
  have h1 := h a.baseLayer a.baseMip
  have h2 := h b.baseLayer b.baseMip
  have h3 := h (a.baseLayer + a.layers - 1) (a.baseMip + a.levels - 1)
  have h4 := h (b.baseLayer + b.layers - 1) (b.baseMip + b.levels - 1)
  omega

/-- The comparison made by the code is that of the views' data. -/
theorem matchView_iff (v w : View) (hv : ViewOk v) (hw : ViewOk w) (hi : v.image.id = w.image.id → v.image = w.image) :
    matchView v w = true ↔ SameView v w := by
  obtain ⟨hne, hv3⟩ := hv
  obtain ⟨-, hw3⟩ := hw
  unfold matchView SameView
  simp only [covers_iff] at *
  simp only [Bool.and_eq_true, beq_iff_eq, and_assoc]
  constructor
  · rintro ⟨h1, h2, h3⟩
    have himg := hi h1
    refine ⟨himg, h2, ?_⟩
    split at h3
    · rename_i ht
      unfold matchRange at h3
      simp only [Bool.and_eq_true, beq_iff_eq, bne_iff_ne, and_assoc] at h3
      obtain ⟨g1, g2, g3, g4, g5⟩ := h3
      refine ⟨g1, ?_⟩
      intro l m
      rw [← himg, ← ht]
      unfold getVirtualRange
      rw [g4, g5]
      split <;> unfold Range.Has <;> simp only [g2, g3, g4, g5]
    · unfold matchRange at h3
      simp only [Bool.and_eq_true, beq_iff_eq, bne_iff_ne, and_assoc] at h3
      obtain ⟨g1, g2, g3, g4, g5⟩ := h3
      have ea : ∀ img vt r, (getVirtualRange img vt r).aspect = r.aspect := by
        intro img vt r; unfold getVirtualRange; split <;> rfl
      rw [ea, ea] at g1
      refine ⟨g1, ?_⟩
      intro l m
      rw [← himg]
      unfold Range.Has
      rw [g2, g3, g4, g5]
  · rintro ⟨h1, h2, h3, h4⟩
    refine ⟨by rw [h1], h2, ?_⟩
    rw [← h1] at h4
    obtain ⟨g1, g2, g3, g4⟩ := has_ext hne h4
    have em : ∀ img vt r, (getVirtualRange img vt r).baseMip = r.baseMip
        ∧ (getVirtualRange img vt r).levels = r.levels := by
      intro img vt r; unfold getVirtualRange; split <;> exact ⟨rfl, rfl⟩
    have ea : ∀ img vt r, (getVirtualRange img vt r).aspect = r.aspect := by
      intro img vt r; unfold getVirtualRange; split <;> rfl
    rw [(em _ _ _).1, (em _ _ _).1] at g3
    rw [(em _ _ _).2, (em _ _ _).2] at g4
    split
    · rename_i ht
      unfold matchRange
      simp only [Bool.and_eq_true, beq_iff_eq, bne_iff_ne, and_assoc]
      refine ⟨h3, ?_⟩
      by_cases h3d : v.viewType = .d3
      · have a1 := hv3 h3d
        have a2 := hw3 (ht ▸ h3d)
        exact ⟨by rw [a1.1, a2.1], by rw [a1.2, a2.2], g3, g4⟩
      · have plain : ∀ r, getVirtualRange v.image v.viewType r = r := by
          intro r; unfold getVirtualRange; rw [if_neg fun h => h3d h.1]
        rw [← ht, plain, plain] at g1 g2
        exact ⟨g1, g2, g3, g4⟩
    · unfold matchRange
      simp only [Bool.and_eq_true, beq_iff_eq, bne_iff_ne, and_assoc]
      rw [ea, ea, (em _ _ _).1, (em _ _ _).1, (em _ _ _).2, (em _ _ _).2]
      exact ⟨h3, g1, g2, g3, g4⟩

/-- C21: the recursion always ends, cycles or not, having looked at most once at each pass. -/
theorem dependsOn_terminates (H : Heap) (hcl : Closed H) (o i : DPass → Bool) (t k a : Nat) (c : Cache)
    (ha : a ∈ H.univ) : ∃ r, dependsOnN H o i t k (H.univ.length + 1) a c = some r :=
  ⟨_, dependsOn_eq H hcl o i t k a c ha⟩

/-- A question `pass.dependsOn( target, view, cache )`; passes by address. -/
structure Ask where
  who : Nat
  target : Nat
  view : View

/-- The answers to a series of questions asked with the same cache. -/
def answers (sources : View → List View) (H : Heap) : List Ask → Cache → List Bool
  | [], _ => []
  | q :: qs, c =>
    let r := (viewKind sources).dependsOn H q.who q.target q.view c
    r.1 :: answers sources H qs r.2

theorem via_congr (H : Heap) (hcl : Closed H) {w w' r r' : DPass → Prop} (t : Nat)
    (hw : ∀ a ∈ H.univ, w (H.pass a) ↔ w' (H.pass a)) (hr : ∀ a ∈ H.univ, r (H.pass a) ↔ r' (H.pass a)) (a : Nat)
    (ha : a ∈ H.univ) (h : Via H w r t a) : Via H w' r' t a := by
  induction h with
  | last h1 h2 h3 => exact .last h1 ((hw _ (hcl _ ha _ h1)).1 h2) h3
  | step h1 h2 h3 _ ih =>
    have hd := hcl _ ha _ h1
    exact .step h1 (fun h => h2 ((hw _ hd).2 h)) (fun h => h3 ((hr _ hd).2 h)) (ih hd)

/-- What the questions and the passes talk about: views created by one handler (one id each, 32 bits), valid, not
merged. -/
structure PlainViews (sources : View → List View) (H : Heap) (known : View → Prop) : Prop where
  ok : ∀ v, known v → ViewOk v
  id32 : ∀ v, known v → v.id < 2 ^ 32
  ids : ∀ v w, known v → known w → v.id = w.id → v = w
  images : ∀ v w, known v → known w → v.image.id = w.image.id → v.image = w.image
  unmerged : ∀ v, known v → sources v = []
  attached : ∀ a ∈ H.univ, ∀ x ∈ (H.pass a).images, known (viewOf x)
  passes : ∀ a ∈ H.univ, (H.pass a).id < 2 ^ 32

theorem viewInOutputs_iff {sources : View → List View} {H : Heap} {known : View → Prop}
    (h : PlainViews sources H known) (a : Nat) (ha : a ∈ H.univ) (v : View) (hv : known v) :
    viewInOutputs sources (H.pass a) v = true ↔ WritesView v (H.pass a) := by
  unfold viewInOutputs WritesView splitAttach splitView
  rw [h.unmerged v hv]
  simp only [List.isEmpty_nil, if_true, List.any_cons, List.any_nil, Bool.or_false, List.any_eq_true]
  refine exists_congr fun x => and_congr_right fun hx => ?_
  have hk := h.attached a ha x hx
  rw [h.unmerged _ hk]
  simp only [List.isEmpty_nil, if_true, List.mem_cons, List.not_mem_nil, or_false, exists_eq_left, Bool.and_eq_true]
  rw [matchView_iff _ _ (h.ok _ hk) (h.ok _ hv) (h.images _ _ hk hv)]
  exact and_comm

theorem viewInInputs_iff {sources : View → List View} {H : Heap} {known : View → Prop}
    (h : PlainViews sources H known) (a : Nat) (ha : a ∈ H.univ) (v : View) (hv : known v) :
    viewInInputs sources (H.pass a) v = true ↔ ReadsView v (H.pass a) := by
  unfold viewInInputs ReadsView splitAttach splitView
  rw [h.unmerged v hv]
  simp only [List.isEmpty_nil, if_true, List.any_cons, List.any_nil, Bool.or_false, List.any_eq_true]
  refine exists_congr fun x => and_congr_right fun hx => ?_
  have hk := h.attached a ha x hx
  rw [h.unmerged _ hk]
  simp only [List.isEmpty_nil, if_true, List.mem_cons, List.not_mem_nil, or_false, exists_eq_left, Bool.and_eq_true]
  rw [matchView_iff _ _ (h.ok _ hk) (h.ok _ hv) (h.images _ _ hk hv)]
  exact and_comm

/-- The cache only holds right answers to the questions about known views. -/
def ViewCacheExact (sources : View → List View) (H : Heap) (known : View → Prop) (c : Cache) : Prop :=
  ∀ t ∈ H.univ, ∀ v, known v → ExactAt H (viewInOutputs sources · v) (viewInInputs sources · v) (H.pass t).id
    (viewKey (H.pass t).id v.id) c

theorem viewCacheExact_step {sources : View → List View} {H : Heap} {known : View → Prop} (hcl : Closed H)
    (hac : Acyclic H) (h : PlainViews sources H known) (a t : Nat) (v : View) (ha : a ∈ H.univ) (ht : t ∈ H.univ)
    (hv : known v) (c : Cache) (hc : ViewCacheExact sources H known c) :
    ViewCacheExact sources H known ((viewKind sources).dependsOn H a t v c).2
    ∧ (((viewKind sources).dependsOn H a t v c).1 = true
        ↔ CVia H (viewInOutputs sources · v) (viewInInputs sources · v) (H.pass t).id a) := by
  have hx := dependsOn_exact H hcl hac (viewInOutputs sources · v) (viewInInputs sources · v) (H.pass t).id
    (viewKey (H.pass t).id v.id) a c ha (hc t ht v hv)
  refine ⟨?_, hx.2⟩
  intro t' ht' v' hv'
  by_cases hk : viewKey (H.pass t').id v'.id = viewKey (H.pass t).id v.id
  · obtain ⟨e1, e2⟩ := view_keys_distinct _ _ _ _ (h.passes t' ht') (h.passes t ht) (h.id32 v' hv') (h.id32 v hv) hk
    have e3 := h.ids _ _ hv' hv e2
    rw [hk, e1, e3]
    exact hx.1
  · intro x b hb
    have := dependsOn_onlyKey H (viewInOutputs sources · v) (viewInInputs sources · v) (H.pass t).id
      (viewKey (H.pass t).id v.id) a c x _ hk
    change (Deps.dependsOn H _ _ _ _ a c).2 x _ = some b at hb
    change (Deps.dependsOn H _ _ _ _ a c).2 x _ = _ at this
    have hb' : c x (viewKey (H.pass t').id v'.id) = some b := this ▸ hb
    exact hc t' ht' v' hv' x b hb'

/-- C21 (partial: views that are not merged; buffers below). In a graph without dependency cycle, every question asked
during any series of questions sharing a cache is answered by whether there is a path of declared dependencies, through
passes that neither write nor read the view, to the target pass and the target writes the view. -/
theorem view_dependency_exact_partial (sources : View → List View) (H : Heap) (hcl : Closed H) (hac : Acyclic H)
    (known : View → Prop) (h : PlainViews sources H known) : ∀ (qs : List Ask),
    (∀ q ∈ qs, q.who ∈ H.univ ∧ q.target ∈ H.univ ∧ known q.view) →
    (answers sources H qs Cache.empty).length = qs.length
    ∧ ∀ (n : Nat) (q : Ask) (b : Bool), qs[n]? = some q → (answers sources H qs Cache.empty)[n]? = some b →
      (b = true ↔ Via H (WritesView q.view) (ReadsView q.view) (H.pass q.target).id q.who) := by
  suffices hs : ∀ (qs : List Ask) (c : Cache), ViewCacheExact sources H known c →
      (∀ q ∈ qs, q.who ∈ H.univ ∧ q.target ∈ H.univ ∧ known q.view) →
      (answers sources H qs c).length = qs.length
      ∧ ∀ (n : Nat) (q : Ask) (b : Bool), qs[n]? = some q → (answers sources H qs c)[n]? = some b →
        (b = true ↔ Via H (WritesView q.view) (ReadsView q.view) (H.pass q.target).id q.who) from
    fun qs hq => hs qs Cache.empty (fun _ _ _ _ _ _ hb => by simp [Cache.empty] at hb) hq
  intro qs
  induction qs with
  | nil => intro c _ _; exact ⟨rfl, by simp⟩
  | cons q qs ih =>
    intro c hc hq
    obtain ⟨h1, h2, h3⟩ := hq q (by simp)
    obtain ⟨h4, h5⟩ := viewCacheExact_step hcl hac h q.who q.target q.view h1 h2 h3 c hc
    obtain ⟨h6, h7⟩ := ih _ h4 (fun q hq' => hq q (by simp [hq']))
    refine ⟨by simp [answers, h6], ?_⟩
    intro n q' b hn hb
    cases n with
    | zero =>
      simp only [List.getElem?_cons_zero, Option.some.injEq] at hn
      simp only [answers, List.getElem?_cons_zero, Option.some.injEq] at hb
      subst hn hb
      rw [h5]
      constructor
      · exact via_congr H hcl _ (fun a ha => viewInOutputs_iff h a ha _ h3) (fun a ha => viewInInputs_iff h a ha _ h3)
          _ h1
      · exact via_congr H hcl _ (fun a ha => (viewInOutputs_iff h a ha _ h3).symm)
          (fun a ha => (viewInInputs_iff h a ha _ h3).symm) _ h1
    | succ n =>
      simp only [List.getElem?_cons_succ] at hn
      simp only [answers, List.getElem?_cons_succ] at hb
      exact h7 n q' b hn hb

/-! #### Non-vacuity and negations -/

def noSources : View → List View := fun _ => []
/-- A heap of passes at addresses 1, 2, …, whose ids are their addresses. -/
def heapOf (ps : List (List Nat × List Attachment × List Attachment)) : Heap where
  univ := (List.range ps.length).map (· + 1)
  pass := fun a =>
    match ps[a - 1]? with
    | some (d, i, b) => ⟨a, d, i, b⟩
    | none => ⟨a, [], [], []⟩

/-- 1 writes view 1, 2 doesn't touch it, 3 reads it; 3 depends on 2 that depends on 1. -/
def chainHeap : Heap := heapOf
  [([], [ImageAdder.outputStorage.attach 1 0 [oView 1 0 1]], []), ([1], [], []),
   ([2], [ImageAdder.sampled.attach 3 0 [oView 1 0 1]], [])]

example : answers noSources chainHeap
    [⟨2, 1, oView 1 0 1⟩, ⟨3, 2, oView 1 0 1⟩, ⟨3, 1, oView 1 0 1⟩, ⟨3, 1, oView 2 4 1⟩, ⟨3, 1, oView 1 0 1⟩] Cache.empty
    = [true, false, true, false, true] := by decide

theorem chain_ok : Closed chainHeap ∧ Acyclic chainHeap ∧ PlainViews noSources chainHeap (· = oView 1 0 1) := by
  have hu : ∀ a ∈ chainHeap.univ, a = 1 ∨ a = 2 ∨ a = 3 := by decide
  refine ⟨by unfold Closed; decide, ⟨fun a => a, ?_⟩, ?_⟩
  · intro a d hd
    match a with
    | 0 => simp [chainHeap, heapOf] at hd
    | 1 => simp [chainHeap, heapOf] at hd
    | 2 => simp [chainHeap, heapOf] at hd; subst hd; decide
    | 3 => simp [chainHeap, heapOf] at hd; subst hd; decide
    | n + 4 => simp [chainHeap, heapOf] at hd
  · refine ⟨?_, by rintro v rfl; decide, by rintro v w rfl rfl _; rfl, by rintro v w rfl rfl _; rfl,
      by rintro v rfl; rfl, ?_, ?_⟩
    · rintro v rfl
      exact ⟨⟨0, 0, (covers_iff _ _ _).2 (by decide)⟩, by decide⟩
    · decide
    · decide

/-- C21 is false of graphs with a dependency cycle: 1 depends on 2 and 3, 2 and 3 depend on 1, 3 writes the view. Asked
first, whether 2 depends on 3 is answered yes; asked after the same question about 1, it is answered no. Such a graph
is accepted by compilation (C02, `cyclic_graph_accepted`). -/
def cyclicHeap : Heap := heapOf
  [([2, 3], [], []), ([1], [], []), ([1], [ImageAdder.outputStorage.attach 3 0 [oView 1 0 1]], [])]

theorem cyclic_answer_depends_on_history :
    answers noSources cyclicHeap [⟨2, 3, oView 1 0 1⟩] Cache.empty = [true]
    ∧ answers noSources cyclicHeap [⟨1, 3, oView 1 0 1⟩, ⟨2, 3, oView 1 0 1⟩] Cache.empty = [true, false] := by
  decide

/-- C21 is false of merged views: view 3 is the merge of views 1 and 2, pass 1 writes it, pass 2 reads it and depends
on pass 1, which isn't seen, the parts of view 3 being compared with the whole of it. -/
def mergedSources : View → List View := fun v => if v.id = 3 then [oView 1 0 1, oView 2 1 1] else []
def mergedHeap : Heap := heapOf
  [([], [ImageAdder.outputStorage.attach 1 0 [oView 3 0 2]], []),
   ([1], [ImageAdder.sampled.attach 2 0 [oView 3 0 2]], [])]

theorem merged_writer_not_seen :
    answers mergedSources mergedHeap [⟨2, 1, oView 3 0 2⟩] Cache.empty = [false]
    ∧ Via mergedHeap (WritesView (oView 3 0 2)) (ReadsView (oView 3 0 2)) 1 2 := by
  refine ⟨by decide, ?_⟩
  refine .last (d := 1) (by decide) ⟨_, List.mem_cons_self, by decide, ?_⟩ rfl
  exact ⟨rfl, rfl, by decide, fun _ _ => Iff.rfl⟩

/-- Answers about buffers. -/
def bufferAnswers (H : Heap) : List (Nat × Nat × List Nat) → Cache → List Bool
  | [], _ => []
  | q :: qs, c =>
    let r := bufferKind.dependsOn H q.1 q.2.1 q.2.2 c
    r.1 :: bufferAnswers H qs r.2

/-- C22, buffers, any handles: the key holds the 32 low bits. -/
theorem buffer_keys_low (p q v w : Nat) (hp : p < 2 ^ 32) (hq : q < 2 ^ 32) (h : bufferKey p v = bufferKey q w) :
    p = q ∧ v % 2 ^ 32 = w % 2 ^ 32 := by
  unfold bufferKey at h
  have e : ∀ x : Nat, x &&& 0xFFFFFFFF = x % 2 ^ 32 := fun x => Nat.and_two_pow_sub_one_eq_mod x 32
  rw [e, e] at h
  exact view_keys_distinct p q _ _ hp hq (Nat.mod_lt _ (by decide)) (Nat.mod_lt _ (by decide)) h

theorem bufferInOutputs_iff (p : DPass) (b : List Nat) : bufferInOutputs p b = true ↔ StoresBuffer b p := by
  simp [bufferInOutputs, StoresBuffer]

theorem bufferInInputs_iff (p : DPass) (b : List Nat) : bufferInInputs p b = true ↔ StoresBuffer b p := by
  simp [bufferInInputs, StoresBuffer]

/-- The cache only holds right answers to the questions about known buffers. -/
def BufferCacheExact (H : Heap) (known : List Nat → Prop) (c : Cache) : Prop :=
  ∀ t ∈ H.univ, ∀ b, known b → ExactAt H (bufferInOutputs · b) (bufferInInputs · b) (H.pass t).id
    (bufferKey (H.pass t).id (firstBuffer b)) c

theorem bufferCacheExact_step {H : Heap} {known : List Nat → Prop} (hcl : Closed H) (hac : Acyclic H)
    (hid : ∀ a ∈ H.univ, (H.pass a).id < 2 ^ 32)
    (hlow : ∀ b c, known b → known c → firstBuffer b % 2 ^ 32 = firstBuffer c % 2 ^ 32 → b = c) (a t : Nat) (b : List Nat)
    (ha : a ∈ H.univ) (ht : t ∈ H.univ) (hb : known b) (c : Cache) (hc : BufferCacheExact H known c) :
    BufferCacheExact H known (bufferKind.dependsOn H a t b c).2
    ∧ ((bufferKind.dependsOn H a t b c).1 = true ↔ Via H (StoresBuffer b) (StoresBuffer b) (H.pass t).id a) := by
  have hx := dependsOn_exact H hcl hac (bufferInOutputs · b) (bufferInInputs · b) (H.pass t).id
    (bufferKey (H.pass t).id (firstBuffer b)) a c ha (hc t ht b hb)
  refine ⟨?_, ?_⟩
  · intro t' ht' b' hb'
    by_cases hk : bufferKey (H.pass t').id (firstBuffer b') = bufferKey (H.pass t).id (firstBuffer b)
    · obtain ⟨e1, e2⟩ := buffer_keys_low _ _ _ _ (hid t' ht') (hid t ht) hk
      have e3 := hlow _ _ hb' hb e2
      rw [hk, e1, e3]
      exact hx.1
    · intro x r hr
      have := dependsOn_onlyKey H (bufferInOutputs · b) (bufferInInputs · b) (H.pass t).id
        (bufferKey (H.pass t).id (firstBuffer b)) a c x _ hk
      change (Deps.dependsOn H _ _ _ _ a c).2 x _ = some r at hr
      change (Deps.dependsOn H _ _ _ _ a c).2 x _ = _ at this
      have hr' : c x (bufferKey (H.pass t').id (firstBuffer b')) = some r := this ▸ hr
      exact hc t' ht' b' hb' x r hr'
  · refine Iff.trans hx.2 ⟨?_, ?_⟩
    · exact via_congr H hcl _ (fun x _ => bufferInOutputs_iff _ b) (fun x _ => bufferInInputs_iff _ b) _ ha
    · exact via_congr H hcl _ (fun x _ => (bufferInOutputs_iff _ b).symm) (fun x _ => (bufferInInputs_iff _ b).symm) _ ha

/-- C21, buffers (partial: first handles that differ in their 32 low bits; a storage attachment counts as writing). In a graph without
dependency cycle, every question asked during any series of questions sharing a cache is answered by whether there is a path of declared
dependencies, through passes that don't use the buffer as storage buffer, to the target pass and the target uses it so. -/
theorem buffer_dependency_exact_partial (H : Heap) (hcl : Closed H) (hac : Acyclic H) (hid : ∀ a ∈ H.univ, (H.pass a).id < 2 ^ 32)
    (known : List Nat → Prop) (hlow : ∀ b c, known b → known c → firstBuffer b % 2 ^ 32 = firstBuffer c % 2 ^ 32 → b = c)
    (qs : List (Nat × Nat × List Nat)) (hq : ∀ q ∈ qs, q.1 ∈ H.univ ∧ q.2.1 ∈ H.univ ∧ known q.2.2) :
    (bufferAnswers H qs Cache.empty).length = qs.length
    ∧ ∀ (n : Nat) (q : Nat × Nat × List Nat) (r : Bool), qs[n]? = some q → (bufferAnswers H qs Cache.empty)[n]? = some r →
      (r = true ↔ Via H (StoresBuffer q.2.2) (StoresBuffer q.2.2) (H.pass q.2.1).id q.1) := by
  suffices hs : ∀ (qs : List (Nat × Nat × List Nat)) (c : Cache), BufferCacheExact H known c →
      (∀ q ∈ qs, q.1 ∈ H.univ ∧ q.2.1 ∈ H.univ ∧ known q.2.2) →
      (bufferAnswers H qs c).length = qs.length
      ∧ ∀ (n : Nat) (q : Nat × Nat × List Nat) (r : Bool), qs[n]? = some q → (bufferAnswers H qs c)[n]? = some r →
        (r = true ↔ Via H (StoresBuffer q.2.2) (StoresBuffer q.2.2) (H.pass q.2.1).id q.1) from
    hs qs Cache.empty (fun _ _ _ _ _ _ hb => by simp [Cache.empty] at hb) hq
  intro qs
  induction qs with
  | nil => intro c _ _; exact ⟨rfl, by simp⟩
  | cons q qs ih =>
    intro c hc hq
    obtain ⟨h1, h2, h3⟩ := hq q (by simp)
    obtain ⟨h4, h5⟩ := bufferCacheExact_step hcl hac hid hlow q.1 q.2.1 q.2.2 h1 h2 h3 c hc
    obtain ⟨h6, h7⟩ := ih _ h4 (fun q hq' => hq q (by simp [hq']))
    refine ⟨by simp [bufferAnswers, h6], ?_⟩
    intro n q' r hn hr
    cases n with
    | zero =>
      simp only [List.getElem?_cons_zero, Option.some.injEq] at hn
      simp only [bufferAnswers, List.getElem?_cons_zero, Option.some.injEq] at hr
      subst hn hr
      exact h5
    | succ n =>
      simp only [List.getElem?_cons_succ] at hn
      simp only [bufferAnswers, List.getElem?_cons_succ] at hr
      exact h7 n q' r hn hr

/-- If a buffer is only used as output (or in-out) storage buffer, this is what the property says: there is a path through passes that neither
write nor read it to the target, that writes it. -/
theorem stores_is_writes (H : Heap) (hcl : Closed H) (b : List Nat) (t a : Nat) (ha : a ∈ H.univ)
    (honly : ∀ p ∈ H.univ, ∀ x ∈ (H.pass p).buffers, x.buf.buffers = b → x.isStorageBuffer = true ∧ x.isOutput = true) :
    Via H (StoresBuffer b) (StoresBuffer b) t a ↔ Via H (WritesBuffer b) (ReadsBuffer b) t a := by
  have hw : ∀ p ∈ H.univ, StoresBuffer b (H.pass p) ↔ WritesBuffer b (H.pass p) := fun p hp =>
    ⟨fun ⟨x, hx, _, e⟩ => ⟨x, hx, (honly p hp x hx e).2, e⟩, fun ⟨x, hx, _, e⟩ => ⟨x, hx, (honly p hp x hx e).1, e⟩⟩
  have hr : ∀ p ∈ H.univ, ReadsBuffer b (H.pass p) → WritesBuffer b (H.pass p) := fun p hp ⟨x, hx, _, e⟩ => ⟨x, hx, (honly p hp x hx e).2, e⟩
  constructor
  · intro h
    induction h with
    | last h1 h2 h3 => exact .last h1 ((hw _ (hcl _ ha _ h1)).1 h2) h3
    | step h1 h2 h3 _ ih =>
      have hd := hcl _ ha _ h1
      exact .step h1 (fun h => h2 ((hw _ hd).2 h)) (fun h => h2 ((hw _ hd).2 (hr _ hd h))) (ih hd)
  · intro h
    induction h with
    | last h1 h2 h3 => exact .last h1 ((hw _ (hcl _ ha _ h1)).2 h2) h3
    | step h1 h2 h3 _ ih =>
      have hd := hcl _ ha _ h1
      exact .step h1 (fun h => h2 ((hw _ hd).1 h)) (fun h => h2 ((hw _ hd).1 h)) (ih hd)

/-- The hypotheses of `stores_is_writes` are met: a buffer filled, then updated in place. -/
example : ∀ p ∈ (heapOf [([], [], [BufferAdder.outputStorage.attach 1 0 [7] 0 0 64]), ([1], [], [BufferAdder.inOutStorage.attach 2 0 [7] 0 0 64])]).univ,
    ∀ x ∈ ((heapOf [([], [], [BufferAdder.outputStorage.attach 1 0 [7] 0 0 64]),
      ([1], [], [BufferAdder.inOutStorage.attach 2 0 [7] 0 0 64])]).pass p).buffers,
    x.buf.buffers = [7] → x.isStorageBuffer = true ∧ x.isOutput = true := by decide

/-- C21 is false of buffers: a pass that only reads a storage buffer counts as writing it, and a transfer output doesn't
count. -/
theorem buffer_writers_confused :
    (bufferAnswers (heapOf [([], [], [BufferAdder.inputStorage.attach 1 0 [7] 0 0 64]), ([1], [], [])])
      [(2, 1, [7])] Cache.empty = [true]
      ∧ ¬ WritesBuffer [7] ((heapOf [([], [], [BufferAdder.inputStorage.attach 1 0 [7] 0 0 64]), ([1], [], [])]).pass 1))
    ∧ (bufferAnswers (heapOf [([], [], [BufferAdder.transferOutput.attach 1 0 [7] 0 0 64]), ([1], [], [])])
      [(2, 1, [7])] Cache.empty = [false]
      ∧ WritesBuffer [7]
          ((heapOf [([], [], [BufferAdder.transferOutput.attach 1 0 [7] 0 0 64]), ([1], [], [])]).pass 1)) := by
  refine ⟨⟨by decide, ?_⟩, ⟨by decide, _, List.mem_cons_self, by decide, rfl⟩⟩
  rintro ⟨a, ha, h, -⟩
  have : a = BufferAdder.inputStorage.attach 1 0 [7] 0 0 64 := by simpa [heapOf] using ha
  subst this
  revert h
  decide

/-- C21, C22 are false of buffers: buffer 2^32 + 7 isn't used by pass 1, but once the question was asked about buffer 7
the same answer is given. -/
theorem buffer_answer_confused :
    bufferAnswers (heapOf [([], [], [BufferAdder.outputStorage.attach 1 0 [7] 0 0 64]), ([1], [], [])])
      [(2, 1, [2 ^ 32 + 7])] Cache.empty = [false]
    ∧ bufferAnswers (heapOf [([], [], [BufferAdder.outputStorage.attach 1 0 [7] 0 0 64]), ([1], [], [])])
      [(2, 1, [7]), (2, 1, [2 ^ 32 + 7])] Cache.empty = [true, true] := by
  decide

end Verif.Deps
