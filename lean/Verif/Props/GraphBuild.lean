import Verif.Lemmas.GraphBuild
/-
C24 (transitions are not duplicated), C25 (the compiled graph is rooted, connected, acyclic), C50 (dependencies that
share data are edges).
-/
namespace Verif.Deps
open Verif.Att

/-! ### Instances of `Ctx` -/

/-- An image attachment of a pass of the graph. -/
def ImageOf (H : Heap) (a : Attachment) : Prop := a.pass ∈ H.univ ∧ a ∈ (H.pass a.pass).images
def BufferOf (H : Heap) (a : Attachment) : Prop := a.pass ∈ H.univ ∧ a ∈ (H.pass a.pass).buffers

/-- What is known of view transitions. -/
def ViewTrans (H : Heap) (known : View → Prop) (t : Trans View) : Prop :=
  known t.data ∧ (t.input.pass ≠ 0 → t.output.pass ≠ 0 →
    (ImageOf H t.output ∧ t.output.isOutput = true) ∧ (ImageOf H t.input ∧ t.input.isInput = true)
    ∧ (t.data = viewOf t.output ∨ t.data = viewOf t.input)
    ∧ (viewOf t.output).image.id = (viewOf t.input).image.id)

def BufferTrans (H : Heap) (t : Trans (List Nat)) : Prop :=
  t.input.pass ≠ 0 → t.output.pass ≠ 0 →
    (BufferOf H t.output ∧ t.output.isOutput = true) ∧ (BufferOf H t.input ∧ t.input.isInput = true)
    ∧ firstBuffer t.output.buf.buffers = firstBuffer t.input.buf.buffers
    ∧ (t.data = t.output.buf.buffers ∨ t.data = t.input.buf.buffers)

/-- Some attachment is of this buffer. -/
def UsedBuffer (H : Heap) (b : List Nat) : Prop := ∃ x, BufferOf H x ∧ x.buf.buffers = b

theorem sameView_symm {v w : View} (h : SameView v w) : SameView w v :=
  ⟨h.1.symm, h.2.1.symm, by rw [Nat.and_comm]; exact h.2.2.1, fun l m => (h.2.2.2 l m).symm⟩

theorem attachEq_symm {a b : Attachment} (h : attachEq a b = true) : attachEq b a = true := by
  unfold attachEq imgEq bufEq at *
  simp only [Bool.and_eq_true, beq_iff_eq] at *
  simp only [h, and_self]

theorem attachEq_pass {a b : Attachment} (h : attachEq a b = true) : a.pass = b.pass := by
  unfold attachEq at h
  simp only [Bool.and_eq_true, beq_iff_eq] at h
  exact h.1.1.1

theorem getInputView_mem (v w : View) : getInputView v w = v ∨ getInputView v w = w := by
  unfold getInputView; split <;> simp
theorem getOutputView_mem (v w : View) : getOutputView v w = v ∨ getOutputView v w = w := by
  unfold getOutputView; split <;> simp

theorem split_view (sources : View → List View) (a x : Attachment) (h : x ∈ (viewKind sources).split a) : x = a := by
  change x ∈ splitAttach sources a at h
  unfold splitAttach at h
  split at h
  · simpa using h
  · obtain ⟨v, -, rfl⟩ := List.mem_map.1 h
    rfl

theorem split_view_ne (sources : View → List View) (a : Attachment) : (viewKind sources).split a ≠ [] := by
  change splitAttach sources a ≠ []
  unfold splitAttach
  split
  · simp
  · rename_i h
    intro he
    apply h
    simpa using he

/-- The context for views, for a symmetric relation that implies the equality of transitions and an invariant of the
cache. -/
theorem view_ctx (sources : View → List View) (H : Heap) (known : View → Prop) (h : WellFormed H known)
    (R : Trans View → Trans View → Prop) (hsym : ∀ x y, R x y → R y x)
    (hR : ∀ x y, known x.data → known y.data → R x y → (viewKind sources).transEq x y = true)
    (I : Cache → Prop)
    (hI : ∀ a t v c, a ∈ H.univ → t ∈ H.univ → known v → I c → I ((viewKind sources).dependsOn H a t v c).2) :
    Ctx (viewKind sources) H (fun a => ImageOf H a ∧ a.isOutput = true) (fun a => ImageOf H a ∧ a.isInput = true)
      (ImageOf H) (fun v => v.image.id) (ViewTrans H known) R I := by
  have hk : ∀ a, ImageOf H a → known (viewOf a) := fun a ha => (h.images _ ha.1 _ ha.2).2
  constructor
  · exact fun a ha => ha.1
  · exact fun a ha => ha.1
  · exact split_view sources
  · intro a b ha hb hs
    have : (viewOf a).id = (viewOf b).id := by simpa [viewKind] using hs
    exact congrArg (fun v : View => v.image.id) (h.views _ _ (hk a ha) (hk b hb) this)
  · intro x y hov
    have : overlappingViews x y = true := hov
    unfold overlappingViews at this
    simp only [Bool.and_eq_true, beq_iff_eq] at this
    exact this.1
  · intro o i ho hi hg
    have hko := hk o ho.1
    have hki := hk i hi.1
    refine ⟨⟨?_, fun _ _ => ⟨ho, hi, getInputView_mem _ _, hg⟩⟩, ⟨?_, fun _ _ => ⟨ho, hi, getOutputView_mem _ _, hg⟩⟩⟩
    · change known (getInputView (viewOf o) (viewOf i))
      rcases getInputView_mem (viewOf o) (viewOf i) with e | e <;> rw [e] <;> assumption
    · change known (getOutputView (viewOf o) (viewOf i))
      rcases getOutputView_mem (viewOf o) (viewOf i) with e | e <;> rw [e] <;> assumption
  · intro a ha
    exact ⟨⟨hk a ha, fun _ h2 => absurd rfl h2⟩, ⟨hk a ha, fun h2 _ => absurd rfl h2⟩⟩
  · exact hsym
  · exact fun x y hx hy hr => hR x y hx.1 hy.1 hr
  · intro t c ht h1 h2 hc
    obtain ⟨g1, g2, -⟩ := ht.2 h1 h2
    exact hI _ _ _ c g2.1.1 g1.1.1 ht.1 hc
  · intro o i c ho hi hc
    refine hI _ _ _ c hi.1.1 ho.1.1 ?_ hc
    change known (getOutputView (viewOf i) (viewOf o))
    rcases getOutputView_mem (viewOf i) (viewOf o) with e | e <;> rw [e]
    · exact hk i hi.1
    · exact hk o ho.1

theorem buffer_ctx (H : Heap) (R : Trans (List Nat) → Trans (List Nat) → Prop) (hsym : ∀ x y, R x y → R y x)
    (hR : ∀ x y, R x y → bufferKind.transEq x y = true) (I : Cache → Prop)
    (hI : ∀ a t b c, a ∈ H.univ → t ∈ H.univ → UsedBuffer H b → I c → I (bufferKind.dependsOn H a t b c).2) :
    Ctx bufferKind H (fun a => BufferOf H a ∧ a.isOutput = true) (fun a => BufferOf H a ∧ a.isInput = true)
      (BufferOf H) firstBuffer (BufferTrans H) R I := by
  constructor
  · exact fun a ha => ha.1
  · exact fun a ha => ha.1
  · intro a x hx; simpa [bufferKind] using hx
  · intro a b _ _ hs
    have : a.buf.buffers = b.buf.buffers := by simpa [bufferKind] using hs
    exact congrArg firstBuffer this
  · intro x y hov; simpa [bufferKind] using hov
  · intro o i ho hi hg
    exact ⟨fun _ _ => ⟨ho, hi, hg, .inl rfl⟩, fun _ _ => ⟨ho, hi, hg, .inl rfl⟩⟩
  · intro a ha
    exact ⟨fun _ h2 => absurd rfl h2, fun h2 _ => absurd rfl h2⟩
  · exact hsym
  · exact fun x y _ _ hr => hR x y hr
  · intro t c ht h1 h2 hc
    obtain ⟨g1, g2, -, g3⟩ := ht h1 h2
    refine hI _ _ _ c g2.1.1 g1.1.1 ?_ hc
    rcases g3 with e | e
    · exact ⟨_, g1.1, e.symm⟩
    · exact ⟨_, g2.1, e.symm⟩
  · intro o i c ho hi hc
    exact hI _ _ _ c hi.1.1 ho.1.1 ⟨_, hi.1, rfl⟩ hc

theorem views_attached (sources : View → List View) (H : Heap) (known : View → Prop) (h : WellFormed H known) :
    Attached (viewKind sources) H H.univ (fun a => ImageOf H a ∧ a.isOutput = true)
      (fun a => ImageOf H a ∧ a.isInput = true) := by
  constructor
  · intro n hn a ha hs
    have e := (h.images n hn a ha).1
    exact ⟨⟨by rw [e]; exact hn, by rw [e]; exact ha⟩, hs⟩
  · intro n hn a ha hs
    have e := (h.images n hn a ha).1
    exact ⟨⟨by rw [e]; exact hn, by rw [e]; exact ha⟩, hs⟩

theorem buffers_attached (H : Heap) (known : View → Prop) (h : WellFormed H known) :
    Attached bufferKind H H.univ (fun a => BufferOf H a ∧ a.isOutput = true)
      (fun a => BufferOf H a ∧ a.isInput = true) := by
  constructor
  · intro n hn a ha hs
    have e := h.buffers n hn a ha
    have hs' : (a.isOutput && a.isStorageBuffer) = true := hs
    rw [Bool.and_eq_true] at hs'
    exact ⟨⟨by rw [e]; exact hn, by rw [e]; exact ha⟩, hs'.1⟩
  · intro n hn a ha hs
    have e := h.buffers n hn a ha
    have hs' : (a.isInput && (a.isStorageBuffer || (a.isBuffer && a.buf.isUniform) || a.isTransitionBuffer)) = true := hs
    rw [Bool.and_eq_true] at hs'
    exact ⟨⟨by rw [e]; exact hn, by rw [e]; exact ha⟩, hs'.1⟩

/-! ### C24 -/

/-- C24, views: neither the list of all transitions nor the transitions of a pass (as reader, as writer) contain the
same transition twice. Merged views included. -/
theorem view_transitions_distinct (sources : View → List View) (H : Heap) (known : View → Prop)
    (h : WellFormed H known) (hok : ∀ v, known v → ViewOk v)
    (himg : ∀ v w, known v → known w → v.image.id = w.image.id → v.image = w.image) :
    let b := (viewKind sources).build H H.univ
    b.all.Pairwise (fun x y => ¬ SameViewTransition x y)
    ∧ (∀ e ∈ b.ins, e.2.Pairwise fun x y => ¬ SameViewTransition x y)
    ∧ (∀ e ∈ b.outs, e.2.Pairwise fun x y => ¬ SameViewTransition x y) := by
  have hctx := view_ctx sources H known h SameViewTransition
    (fun x y hr => ⟨sameView_symm hr.1, attachEq_symm hr.2.1, attachEq_symm hr.2.2⟩)
    (fun x y hx hy hr => by
      unfold Kind.transEq
      rw [hr.2.1, hr.2.2, Bool.and_true, Bool.and_true]
      exact (matchView_iff _ _ (hok _ hx) (hok _ hy) (himg _ _ hx hy)).2 hr.1)
    (fun _ => True) (fun _ _ _ _ _ _ _ _ => trivial)
  have hb := hctx.build H.univ (views_attached sources H known h) trivial
  exact ⟨hb.all.distinct, fun e he => (hb.ins e he).distinct, fun e he => (hb.outs e he).distinct⟩

/-- C24, buffers. -/
theorem buffer_transitions_distinct (H : Heap) (known : View → Prop) (h : WellFormed H known) :
    let b := bufferKind.build H H.univ
    b.all.Pairwise (fun x y => ¬ SameBufferTransition x y)
    ∧ (∀ e ∈ b.ins, e.2.Pairwise fun x y => ¬ SameBufferTransition x y)
    ∧ (∀ e ∈ b.outs, e.2.Pairwise fun x y => ¬ SameBufferTransition x y) := by
  have hctx := buffer_ctx H SameBufferTransition
    (fun x y hr => ⟨hr.1.symm, attachEq_symm hr.2.1, attachEq_symm hr.2.2⟩)
    (fun x y hr => by
      unfold Kind.transEq
      rw [hr.2.1, hr.2.2, Bool.and_true, Bool.and_true]
      change (x.data == y.data) = true
      rw [beq_iff_eq]
      exact hr.1)
    (fun _ => True) (fun _ _ _ _ _ _ _ _ => trivial)
  have hb := hctx.build H.univ (buffers_attached H known h) trivial
  exact ⟨hb.all.distinct, fun e he => (hb.ins e he).distinct, fun e he => (hb.outs e he).distinct⟩

/-! ### C25 -/

theorem DependsOn.rank {H : Heap} {rank : Nat → Nat} (hr : ∀ a d, d ∈ (H.pass a).deps → rank d < rank a) {a b : Nat}
    (h : DependsOn H a b) : rank b < rank a := by
  induction h with
  | direct h => exact hr _ _ h
  | step h _ ih => exact Nat.lt_trans ih (hr _ _ h)

/-- A pass of this id is reached. -/
def Leads (H : Heap) (t a : Nat) : Prop := ∃ d, d ∈ H.univ ∧ DependsOn H a d ∧ (H.pass d).id = t

theorem via_depends {H : Heap} (hcl : Closed H) {w r : DPass → Prop} {t a : Nat} (ha : a ∈ H.univ) (h : Via H w r t a) :
    Leads H t a := by
  induction h with
  | last h1 _ h3 => exact ⟨_, hcl _ ha _ h1, .direct h1, h3⟩
  | step h1 _ _ _ ih =>
    obtain ⟨d, g1, g2, g3⟩ := ih (hcl _ ha _ h1)
    exact ⟨d, g1, .step h1 g2, g3⟩

/-- Within the graph. -/
theorem follows_leads (H : Heap) (hcl : Closed H) (o i : DPass → Bool) (t : Nat) :
    Follows H o i t (fun a => a ∈ H.univ → Leads H t a) :=
  ⟨fun _ _ h1 _ h3 ha => ⟨_, hcl _ ha _ h1, .direct h1, h3⟩,
    fun _ _ h1 _ _ h4 ha => by
      obtain ⟨d, g1, g2, g3⟩ := h4 (hcl _ ha _ h1)
      exact ⟨d, g1, .step h1 g2, g3⟩⟩

/-- Positive answers in the cache, whatever the question was about, are right about declared dependencies. -/
def LeadsCache (H : Heap) (key : Nat → Nat → Nat) (ok : Nat → Prop) (c : Cache) : Prop :=
  ∀ t ∈ H.univ, ∀ v, ok v → SoundAt (fun a => a ∈ H.univ → Leads H (H.pass t).id a) (key (H.pass t).id v) c

theorem leadsCache_step (H : Heap) (hcl : Closed H) (key : Nat → Nat → Nat) (ok : Nat → Prop)
    (hkey : ∀ t ∈ H.univ, ∀ t' ∈ H.univ, ∀ v v', ok v → ok v' → key (H.pass t).id v = key (H.pass t').id v' →
      (H.pass t).id = (H.pass t').id)
    (o i : DPass → Bool) (a t v : Nat) (ha : a ∈ H.univ) (ht : t ∈ H.univ) (hv : ok v) (c : Cache)
    (hc : LeadsCache H key ok c) :
    LeadsCache H key ok (dependsOn H o i (H.pass t).id (key (H.pass t).id v) a c).2
    ∧ ((dependsOn H o i (H.pass t).id (key (H.pass t).id v) a c).1 = true → Leads H (H.pass t).id a) := by
  obtain ⟨h1, h2⟩ := dependsOn_sound H hcl o i (H.pass t).id (key (H.pass t).id v) a
    (fun a => a ∈ H.univ → Leads H (H.pass t).id a) (follows_leads H hcl o i _) c ha (hc t ht v hv)
  refine ⟨?_, fun h => h2 h ha⟩
  intro t' ht' v' hv'
  by_cases hk : key (H.pass t').id v' = key (H.pass t).id v
  · have e := hkey t' ht' t ht v' v hv' hv hk
    rw [hk, e]
    exact h1
  · intro x hx
    rw [dependsOn_onlyKey H o i (H.pass t).id (key (H.pass t).id v) a c x _ hk] at hx
    exact hc t' ht' v' hv' x hx

/-- The edges of the compiled graph, for sound answers on views (`YesV`) and buffers (`YesB`). -/
theorem compile_edges (sources : View → List View) (H : Heap) (known : View → Prop) (h : WellFormed H known)
    (IV IB : Cache → Prop) (YesV : Trans View → Prop) (YesB : Trans (List Nat) → Prop)
    (hIV0 : IV Cache.empty) (hIB0 : IB Cache.empty)
    (hIV : ∀ a t v c, a ∈ H.univ → t ∈ H.univ → known v → IV c → IV ((viewKind sources).dependsOn H a t v c).2)
    (hIB : ∀ a t b c, a ∈ H.univ → t ∈ H.univ → IB c → IB (bufferKind.dependsOn H a t b c).2)
    (hYV : ∀ t c, ViewTrans H known t → t.input.pass ≠ 0 → t.output.pass ≠ 0 → IV c →
      ((viewKind sources).dependsOn H t.input.pass t.output.pass t.data c).1 = true → YesV t)
    (hYB : ∀ t c, BufferTrans H t → t.input.pass ≠ 0 → t.output.pass ≠ 0 → IB c →
      (bufferKind.dependsOn H t.input.pass t.output.pass t.data c).1 = true → YesB t) :
    GraphOk (compileGraph sources H H.univ)
    ∧ (∀ a b, a ≠ 0 → b ∈ (compileGraph sources H H.univ).next a →
        (∃ t, ViewTrans H known t ∧ t.output.pass = a ∧ t.input.pass = b ∧ a ≠ 0 ∧ b ≠ 0 ∧ YesV t)
        ∨ (∃ t, BufferTrans H t ∧ t.output.pass = a ∧ t.input.pass = b ∧ a ≠ 0 ∧ b ≠ 0 ∧ YesB t))
    ∧ (∀ b, b ∈ (compileGraph sources H H.univ).next 0 ↔
        b ∈ H.univ ∧ ∀ a, a ≠ 0 → b ∉ (compileGraph sources H H.univ).next a) := by
  have cv := view_ctx sources H known h (fun _ _ => False) (fun _ _ h => h) (fun _ _ _ _ h => h.elim) IV hIV
  have cb := buffer_ctx H (fun _ _ => False) (fun _ _ h => h) (fun _ _ h => h.elim) IB (fun a t b c ha ht _ => hIB a t b c ha ht)
  have bv := cv.build H.univ (views_attached sources H known h) hIV0
  have bb := cb.build H.univ (buffers_attached H known h) hIB0
  obtain ⟨v1, v2, v3⟩ := buildEdges_spec (viewKind sources) sources H (fun t => { views := [t] }) _ IV YesV
    (fun t c ht h1 h2 hc => ⟨cv.cache t c ht h1 h2 hc, hYV t c ht h1 h2 hc⟩)
    ((viewKind sources).build H H.univ).all (Graph.empty, ((viewKind sources).build H H.univ).cache) bv.all.all bv.cache
    empty_ok
  obtain ⟨w1, w2, w3⟩ := buildEdges_spec bufferKind sources H (fun t => { buffers := [t] }) _ IB YesB
    (fun t c ht h1 h2 hc => ⟨cb.cache t c ht h1 h2 hc, hYB t c ht h1 h2 hc⟩)
    (bufferKind.build H H.univ).all
    (((viewKind sources).buildEdges sources H (fun t => { views := [t] }) ((viewKind sources).build H H.univ).all
      (Graph.empty, ((viewKind sources).build H H.univ).cache)).1, (bufferKind.build H H.univ).cache) bb.all.all bb.cache v1
  generalize hg : (bufferKind.buildEdges sources H (fun t => { buffers := [t] }) (bufferKind.build H H.univ).all
    (((viewKind sources).buildEdges sources H (fun t => { views := [t] }) ((viewKind sources).build H H.univ).all
      (Graph.empty, ((viewKind sources).build H H.univ).cache)).1, (bufferKind.build H H.univ).cache)).1 = g at *
  have hedge : ∀ a b, b ∈ g.next a →
      (∃ t, ViewTrans H known t ∧ t.output.pass = a ∧ t.input.pass = b ∧ a ≠ 0 ∧ b ≠ 0 ∧ YesV t)
      ∨ (∃ t, BufferTrans H t ∧ t.output.pass = a ∧ t.input.pass = b ∧ a ≠ 0 ∧ b ≠ 0 ∧ YesB t) := by
    intro a b hb
    rcases w3 a b hb with hb | ⟨t, ht, hx⟩
    · rcases v3 a b hb with hb | ⟨t, ht, hx⟩
      · simp [Graph.empty] at hb
      · exact .inl ⟨t, bv.all.all t ht, hx⟩
    · exact .inr ⟨t, bb.all.all t ht, hx⟩
  have hroot : g.next 0 = [] := by
    rw [List.eq_nil_iff_forall_not_mem]
    intro b hb
    rcases hedge 0 b hb with ⟨t, -, -, -, h0, -⟩ | ⟨t, -, -, -, h0, -⟩ <;> exact h0 rfl
  have hr := attachRoot_spec sources H.univ g w1 hroot
  have hdef : compileGraph sources H H.univ
      = H.univ.foldl (fun g n => if (g.prev n).isEmpty then g.attach sources 0 n {} else g) g := by
    rw [← hg]; rfl
  simp only at hr
  rw [← hdef] at hr
  refine ⟨hr.1, fun a b ha hb => hedge a b ((hr.2.1 a b ha).1 hb), fun b => ?_⟩
  rw [hr.2.2 b]
  refine and_congr_right fun _ => ⟨fun hn a ha hb => hn a ((hr.2.1 a b ha).1 hb), fun hn a hb => ?_⟩
  by_cases ha : a = 0
  · subst ha; rw [hroot] at hb; simp at hb
  · exact hn a ha ((hr.2.1 a b ha).2 hb)

/-- The edges between passes follow declared dependencies. -/
theorem edge_depends (sources : View → List View) (H : Heap) (known : View → Prop) (h : WellFormed H known)
    (hcl : Closed H) :
    GraphOk (compileGraph sources H H.univ)
    ∧ (∀ a b, a ≠ 0 → b ∈ (compileGraph sources H H.univ).next a → a ∈ H.univ ∧ b ∈ H.univ ∧ DependsOn H b a)
    ∧ (∀ b, b ∈ (compileGraph sources H H.univ).next 0 ↔
        b ∈ H.univ ∧ ∀ a, a ≠ 0 → b ∉ (compileGraph sources H H.univ).next a) := by
  have stepV := fun (a t : Nat) (v : View) (c : Cache) (ha : a ∈ H.univ) (ht : t ∈ H.univ) (hv : known v)
      (hc : LeadsCache H viewKey (· < 2 ^ 32) c) =>
    leadsCache_step H hcl viewKey (· < 2 ^ 32)
      (fun t ht t' ht' v v' hv hv' e => (view_keys_distinct _ _ _ _ (h.id32 t ht) (h.id32 t' ht') hv hv' e).1)
      ((viewKind sources).outputs v) ((viewKind sources).inputs v) a t v.id ha ht (h.view32 v hv) c hc
  have stepB := fun (a t : Nat) (b : List Nat) (c : Cache) (ha : a ∈ H.univ) (ht : t ∈ H.univ)
      (hc : LeadsCache H bufferKey (fun _ => True) c) =>
    leadsCache_step H hcl bufferKey (fun _ => True)
      (fun t ht t' ht' v v' _ _ e => buffer_key_pass _ _ _ _ (h.id32 t ht) (h.id32 t' ht') e)
      (bufferKind.outputs b) (bufferKind.inputs b) a t (firstBuffer b) ha ht trivial c hc
  obtain ⟨g1, g2, g3⟩ := compile_edges sources H known h (LeadsCache H viewKey (· < 2 ^ 32))
    (LeadsCache H bufferKey (fun _ => True)) (fun t => Leads H (H.pass t.output.pass).id t.input.pass)
    (fun t => Leads H (H.pass t.output.pass).id t.input.pass)
    (fun _ _ _ _ _ hx => by simp [Cache.empty] at hx) (fun _ _ _ _ _ hx => by simp [Cache.empty] at hx)
    (fun a t v c ha ht hv hc => (stepV a t v c ha ht hv hc).1) (fun a t b c ha ht hc => (stepB a t b c ha ht hc).1)
    (fun t c ht h1 h2 hc => (stepV _ _ t.data c (ht.2 h1 h2).2.1.1.1 (ht.2 h1 h2).1.1.1 ht.1 hc).2)
    (fun t c ht h1 h2 hc => (stepB _ _ t.data c (ht h1 h2).2.1.1.1 (ht h1 h2).1.1.1 hc).2)
  refine ⟨g1, ?_, g3⟩
  have fin : ∀ a b, a ∈ H.univ → b ∈ H.univ → Leads H (H.pass a).id b → DependsOn H b a := by
    rintro a b ha hb ⟨d, hd, hdep, he⟩
    have := h.ids d hd a ha he
    rw [← this]; exact hdep
  intro a b ha hb
  rcases g2 a b ha hb with ⟨t, ht, e1, e2, h1, h2, hy⟩ | ⟨t, ht, e1, e2, h1, h2, hy⟩
  · subst e1 e2
    obtain ⟨q1, q2, -⟩ := ht.2 h2 h1
    exact ⟨q1.1.1, q2.1.1, fin _ _ q1.1.1 q2.1.1 hy⟩
  · subst e1 e2
    obtain ⟨q1, q2, -⟩ := ht h2 h1
    exact ⟨q1.1.1, q2.1.1, fin _ _ q1.1.1 q2.1.1 hy⟩

/-- C25: every pass can be reached from the root (node 0), whatever its attachments (merged views included). -/
theorem graph_connected (sources : View → List View) (H : Heap) (known : View → Prop) (h : WellFormed H known)
    (hcl : Closed H) (hac : Acyclic H) (a : Nat) (ha : a ∈ H.univ) : Reachable (compileGraph sources H H.univ) 0 a := by
  obtain ⟨-, h2, h3⟩ := edge_depends sources H known h hcl
  obtain ⟨rank, hr⟩ := hac
  suffices hs : ∀ n a, rank a ≤ n → a ∈ H.univ → Reachable (compileGraph sources H H.univ) 0 a from hs _ a (Nat.le_refl _) ha
  intro n
  induction n with
  | zero =>
    intro a hn ha
    refine .step (.here 0) ((h3 a).2 ⟨ha, fun x hx he => ?_⟩)
    have := (h2 x a hx he).2.2.rank hr
    omega
  | succ n ih =>
    intro a hn ha
    by_cases he : ∃ x, x ≠ 0 ∧ a ∈ (compileGraph sources H H.univ).next x
    · obtain ⟨x, hx, he⟩ := he
      obtain ⟨q1, -, q2⟩ := h2 x a hx he
      have := q2.rank hr
      exact .step (ih x (by omega) q1) he
    · exact .step (.here 0) ((h3 a).2 ⟨ha, fun x hx hn => he ⟨x, hx, hn⟩⟩)

/-- C25: the graph has no cycle. -/
theorem graph_acyclic (sources : View → List View) (H : Heap) (known : View → Prop) (h : WellFormed H known)
    (hcl : Closed H) (hac : Acyclic H) (a b : Nat) (hab : b ∈ (compileGraph sources H H.univ).next a) :
    ¬ Reachable (compileGraph sources H H.univ) b a := by
  obtain ⟨-, h2, h3⟩ := edge_depends sources H known h hcl
  obtain ⟨rank, hr⟩ := hac
  -- order: the root first, then by rank
  let ord : Nat → Nat := fun x => if x = 0 then 0 else rank x + 1
  have hedge : ∀ x y, y ∈ (compileGraph sources H H.univ).next x → ord x < ord y := by
    intro x y hxy
    by_cases hx : x = 0
    · subst hx
      have hy := h.nonnull y ((h3 y).1 hxy).1
      simp [ord, hy]
    · obtain ⟨-, q1, q2⟩ := h2 x y hx hxy
      have := q2.rank hr
      simp only [ord, if_neg hx, if_neg (h.nonnull y q1)]
      omega
  have hreach : ∀ x y, Reachable (compileGraph sources H H.univ) x y → ord x ≤ ord y := by
    intro x y hxy
    induction hxy with
    | here => exact Nat.le_refl _
    | step _ he ih => exact Nat.le_of_lt (Nat.lt_of_le_of_lt ih (hedge _ _ he))
  intro hba
  have h4 := hedge a b hab
  have h5 := hreach b a hba
  omega

/-- C25: the root leads exactly to the passes nothing else leads to, nothing leads to the root, successors are listed
once, and the predecessors of a pass are the passes it is a successor of. -/
theorem graph_rooted (sources : View → List View) (H : Heap) (known : View → Prop) (h : WellFormed H known)
    (hcl : Closed H) :
    (∀ b, b ∈ (compileGraph sources H H.univ).next 0 ↔
        b ∈ H.univ ∧ ∀ a, a ≠ 0 → b ∉ (compileGraph sources H H.univ).next a)
    ∧ (∀ a, 0 ∉ (compileGraph sources H H.univ).next a)
    ∧ (∀ a, ((compileGraph sources H H.univ).next a).Nodup)
    ∧ (∀ a b, a ∈ ((compileGraph sources H H.univ).prev b).map (·.1) ↔ b ∈ (compileGraph sources H H.univ).next a) := by
  obtain ⟨h1, h2, h3⟩ := edge_depends sources H known h hcl
  refine ⟨h3, ?_, h1.once, h1.agree⟩
  intro a h0
  by_cases ha : a = 0
  · subst ha
    exact h.nonnull 0 ((h3 0).1 h0).1 rfl
  · exact h.nonnull 0 (h2 a 0 ha h0).2.1 rfl

/-- C25 (partial: views that are not merged; for buffers the dependency is a declared one, maybe not through the
buffer): an edge between two passes joins an output attachment to an input attachment of the same image or buffer, and
the reader depends on the writer for the view of one of them. -/
theorem edge_carries_data_partial (sources : View → List View) (H : Heap) (known : View → Prop)
    (h : WellFormed H known) (hp : PlainViews sources H known) (hcl : Closed H) (hac : Acyclic H) (a b : Nat)
    (ha : a ≠ 0) (hab : b ∈ (compileGraph sources H H.univ).next a) :
    (∃ o ∈ (H.pass a).images, ∃ i ∈ (H.pass b).images, o.isOutput = true ∧ i.isInput = true
      ∧ (viewOf o).image = (viewOf i).image
      ∧ ∃ v, (v = viewOf o ∨ v = viewOf i) ∧ Via H (WritesView v) (ReadsView v) (H.pass a).id b)
    ∨ (∃ o ∈ (H.pass a).buffers, ∃ i ∈ (H.pass b).buffers, o.isOutput = true ∧ i.isInput = true
      ∧ firstBuffer o.buf.buffers = firstBuffer i.buf.buffers ∧ DependsOn H b a) := by
  have stepB := fun (a t : Nat) (b : List Nat) (c : Cache) (ha : a ∈ H.univ) (ht : t ∈ H.univ)
      (hc : LeadsCache H bufferKey (fun _ => True) c) =>
    leadsCache_step H hcl bufferKey (fun _ => True)
      (fun t ht t' ht' v v' _ _ e => buffer_key_pass _ _ _ _ (h.id32 t ht) (h.id32 t' ht') e)
      (bufferKind.outputs b) (bufferKind.inputs b) a t (firstBuffer b) ha ht trivial c hc
  obtain ⟨-, g2, -⟩ := compile_edges sources H known h (ViewCacheExact sources H known)
    (LeadsCache H bufferKey (fun _ => True))
    (fun t => CVia H (viewInOutputs sources · t.data) (viewInInputs sources · t.data) (H.pass t.output.pass).id t.input.pass)
    (fun t => Leads H (H.pass t.output.pass).id t.input.pass)
    (fun _ _ _ _ _ _ hx => by simp [Cache.empty] at hx) (fun _ _ _ _ _ hx => by simp [Cache.empty] at hx)
    (fun a t v c ha ht hv hc => (viewCacheExact_step hcl hac hp a t v ha ht hv c hc).1)
    (fun a t b c ha ht hc => (stepB a t b c ha ht hc).1)
    (fun t c ht h1 h2 hc => (viewCacheExact_step hcl hac hp _ _ _ (ht.2 h1 h2).2.1.1.1 (ht.2 h1 h2).1.1.1 ht.1 c hc).2.1)
    (fun t c ht h1 h2 hc => (stepB _ _ t.data c (ht h1 h2).2.1.1.1 (ht h1 h2).1.1.1 hc).2)
  rcases g2 a b ha hab with ⟨t, ht, e1, e2, h1, h2, hy⟩ | ⟨t, ht, e1, e2, h1, h2, hy⟩
  · subst e1 e2
    obtain ⟨q1, q2, q3, q4⟩ := ht.2 h2 h1
    refine .inl ⟨t.output, q1.1.2, t.input, q2.1.2, q1.2, q2.2, ?_, t.data, q3, ?_⟩
    · exact hp.images _ _ (h.images _ q1.1.1 _ q1.1.2).2 (h.images _ q2.1.1 _ q2.1.2).2 q4
    · exact via_congr H hcl _ (fun x hx => viewInOutputs_iff hp x hx _ ht.1)
        (fun x hx => viewInInputs_iff hp x hx _ ht.1) _ q2.1.1 hy
  · subst e1 e2
    obtain ⟨q1, q2, q3, -⟩ := ht h2 h1
    refine .inr ⟨t.output, q1.1.2, t.input, q2.1.2, q1.2, q2.2, q3, ?_⟩
    obtain ⟨d, hd, hdep, he⟩ := hy
    have := h.ids d hd _ q1.1.1 he
    rw [← this]; exact hdep

/-! ### C50 -/

theorem attachEq_view {a b : Attachment} (h : attachEq a b = true) : (viewOf a).id = (viewOf b).id := by
  unfold attachEq imgEq at h
  simp only [Bool.and_eq_true, beq_iff_eq] at h
  have hv : a.img.views.map (·.id) = b.img.views.map (·.id) := h.1.2.1.1.1.1.1.1.2
  unfold viewOf
  cases ha : a.img.views with
  | nil =>
    cases hb : b.img.views with
    | nil => rfl
    | cons y ys => rw [ha, hb] at hv; simp at hv
  | cons x xs =>
    cases hb : b.img.views with
    | nil => rw [ha, hb] at hv; simp at hv
    | cons y ys =>
      rw [ha, hb] at hv
      simp only [List.map_cons, List.cons.injEq] at hv
      exact hv.1

theorem sameView_writes {v w : View} (h : SameView v w) (ha : v.range.aspect = w.range.aspect) (x : View) :
    SameView x v ↔ SameView x w := by
  unfold SameView
  rw [h.1, h.2.1, ha]
  refine and_congr_right fun _ => and_congr_right fun _ => and_congr_right fun _ => ?_
  exact ⟨fun g l m => (g l m).trans (h.2.2.2 l m), fun g l m => (g l m).trans (h.2.2.2 l m).symm⟩

/-- C50 (partial: views not merged; the reader's view is the writer's one, or a single level of it). A pass that
depends on another one for the data of an output of it, and reads this data or one level of it, is a successor of that
pass in the graph. -/
theorem data_dependency_is_edge_partial (sources : View → List View) (H : Heap) (known : View → Prop)
    (h : WellFormed H known) (hp : PlainViews sources H known) (hcl : Closed H) (hac : Acyclic H) (a b : Nat)
    (ha : a ∈ H.univ) (hb : b ∈ H.univ) (o i : Attachment) (ho : o ∈ (H.pass a).images) (hi : i ∈ (H.pass b).images)
    (hout : o.isOutput = true) (hin : i.isInput = true)
    (hasp : (viewOf o).range.aspect = (viewOf i).range.aspect)
    (hview : SameView (viewOf o) (viewOf i)
      ∨ ((viewOf i).range.levels = 1 ∧ ShareData (viewOf i) (viewOf o)
        ∧ ((getVirtualRange (viewOf i).image (viewOf i).viewType (viewOf i).range).layers
              = (getVirtualRange (viewOf o).image (viewOf o).viewType (viewOf o).range).layers
            ∨ (getVirtualRange (viewOf i).image (viewOf i).viewType (viewOf i).range).baseLayer
              ≤ (getVirtualRange (viewOf o).image (viewOf o).viewType (viewOf o).range).baseLayer)))
    (hvia : Via H (WritesView (viewOf o)) (ReadsView (viewOf o)) (H.pass a).id b) :
    b ∈ (compileGraph sources H H.univ).next a := by
  have ko := (h.images a ha o ho).2
  have ki := (h.images b hb i hi).2
  -- the two contexts
  have hIV := fun (a t : Nat) (v : View) (c : Cache) (ha : a ∈ H.univ) (ht : t ∈ H.univ) (hv : known v)
    (hc : ViewCacheExact sources H known c) => (viewCacheExact_step hcl hac hp a t v ha ht hv c hc).1
  have cv := view_ctx sources H known h (fun _ _ => False) (fun _ _ h => h) (fun _ _ _ _ h => h.elim)
    (ViewCacheExact sources H known) hIV
  have hI0 : ViewCacheExact sources H known Cache.empty := fun _ _ _ _ _ _ hx => by simp [Cache.empty] at hx
  have hat := views_attached sources H known h
  have bv := cv.build H.univ hat hI0
  -- questions about the two views are answered yes
  have yes : ∀ v c, known v → Via H (WritesView v) (ReadsView v) (H.pass a).id b → ViewCacheExact sources H known c →
      ((viewKind sources).dependsOn H b a v c).1 = true := by
    intro v c hv hvia hc
    refine (viewCacheExact_step hcl hac hp b a v hb ha hv c hc).2.2 ?_
    exact via_congr H hcl _ (fun x hx => (viewInOutputs_iff hp x hx _ hv).symm)
      (fun x hx => (viewInInputs_iff hp x hx _ hv).symm) _ hb hvia
  have viaSame : SameView (viewOf o) (viewOf i) →
      Via H (WritesView (viewOf i)) (ReadsView (viewOf i)) (H.pass a).id b := by
    intro hs
    refine via_congr H hcl _ (fun x _ => ?_) (fun x _ => ?_) _ hb hvia
    · unfold WritesView; simp only [sameView_writes hs hasp]
    · unfold ReadsView; simp only [sameView_writes hs hasp]
  -- the two attachments are held
  have hsame : ∀ x y, ImageOf H x → ImageOf H y →
      (viewKind sources).same ((viewKind sources).get x) ((viewKind sources).get y) = true →
      (viewKind sources).get x = (viewKind sources).get y := by
    intro x y hx hy hs
    have : (viewOf x).id = (viewOf y).id := by simpa [viewKind] using hs
    exact h.views _ _ (h.images _ hx.1 _ hx.2).2 (h.images _ hy.1 _ hy.2).2 this
  obtain ⟨o', ho', heldO⟩ := cv.collect_out H.univ hat hsame (fun x _ => split_view_ne sources x) a ha o ho hout
  obtain ⟨i', hi', heldI⟩ := cv.collect_in H.univ hat hsame (fun x _ => split_view_ne sources x) b hb i hi hin
  have hthree := cv.collect H.univ hat
  have imO : ImageOf H o' := by
    obtain ⟨x, hx, -, hm⟩ := heldO
    exact ((hthree.2.1 x hx).attaches o' hm).1.1
  have imI : ImageOf H i' := by
    obtain ⟨x, hx, -, hm⟩ := heldI
    exact ((hthree.1 x hx).attaches i' hm).1.1
  have pO : o'.pass = a := by
    rcases ho' with rfl | e
    · exact (h.images a ha _ ho).1
    · rw [attachEq_pass e]; exact (h.images a ha _ ho).1
  have pI : i'.pass = b := by
    rcases hi' with rfl | e
    · exact (h.images b hb _ hi).1
    · rw [attachEq_pass e]; exact (h.images b hb _ hi).1
  have vO : viewOf o' = viewOf o := by
    rcases ho' with rfl | e
    · rfl
    · exact h.views _ _ (h.images _ imO.1 _ imO.2).2 ko (attachEq_view e)
  have vI : viewOf i' = viewOf i := by
    rcases hi' with rfl | e
    · rfl
    · exact h.views _ _ (h.images _ imI.1 _ imI.2).2 ki (attachEq_view e)
  -- overlap
  have hov : overlappingViews (viewOf i) (viewOf o) = true := by
    rcases hview with hs | ⟨-, h2, h3⟩
    · obtain ⟨l, m, hc⟩ := (hp.ok _ ko).1
      refine (overlap_iff_partial _ _ (hp.ok _ ki).1 (hp.ok _ ko).1 (.inl ?_)).2
        ⟨by rw [hs.1], l, m, (hs.2.2.2 l m).1 hc, hc⟩
      have hne := (hp.ok _ ki).1
      have hx := hs.2.2.2
      simp only [covers_iff] at hne hx
      exact (has_ext hne fun l m => (hx l m).symm).2.1
    · exact (overlap_iff_partial _ _ (hp.ok _ ki).1 (hp.ok _ ko).1 h3).2 h2
  have single : ∀ v w : View, isSingleMipView v w = true ↔ (w.image.id = v.image.id
      ∧ (w.range.baseMip ≤ v.range.baseMip ∧ v.range.baseMip < w.range.baseMip + w.range.levels) ∧ v.range.levels = 1) := by
    intro v w
    unfold isSingleMipView isInRange
    simp only [Bool.and_eq_true, beq_iff_eq, decide_eq_true_eq, and_assoc, ge_iff_le]
  -- the reader's single level is one of the writer's
  have hsingle : ¬ SameView (viewOf o) (viewOf i) → isSingleMipView (viewOf i) (viewOf o) = true := by
    intro hns
    rcases hview with hs | ⟨h1, ⟨h2, l, m, h3, h4⟩, -⟩
    · exact absurd hs hns
    · rw [single]
      rw [covers_iff] at h3 h4
      have em : ∀ img vt r, (getVirtualRange img vt r).baseMip = r.baseMip
          ∧ (getVirtualRange img vt r).levels = r.levels := by
        intro img vt r; unfold getVirtualRange; split <;> exact ⟨rfl, rfl⟩
      unfold Range.Has at h3 h4
      rw [(em _ _ _).1, (em _ _ _).2] at h3 h4
      exact ⟨h2.symm, by omega, h1⟩
  have hrec := cv.build_recorded H.univ hat hI0 o' i' (viewOf o) (viewOf i) heldO heldI hov (by
    intro c hc
    change ((viewKind sources).dependsOn H i'.pass o'.pass (getOutputView (viewOf i') (viewOf o')) c).1 = true
    rw [pO, pI, vO, vI]
    unfold getOutputView
    split
    · exact yes _ c ko hvia hc
    · rename_i hns
      refine yes _ c ki (viaSame (Classical.byContradiction fun hn => hns (hsingle hn))) hc)
  -- a transition answered yes
  have htrans : ∃ x ∈ ((viewKind sources).build H H.univ).all, ∃ v, (v = viewOf o ∨ (v = viewOf i ∧ SameView (viewOf o) v))
      ∧ (x = ⟨v, o', i'⟩ ∨ (viewKind sources).transEq x ⟨v, o', i'⟩ = true) := by
    obtain ⟨⟨x, hx, h1⟩, h2⟩ := hrec
    have e1 : (viewKind sources).getInput o' i' = getInputView (viewOf o) (viewOf i) := by rw [← vO, ← vI]; rfl
    have e2 : (viewKind sources).getOutput o' i' = getOutputView (viewOf o) (viewOf i) := by rw [← vO, ← vI]; rfl
    have e3 : (viewKind sources).agree ((viewKind sources).get o') ((viewKind sources).get i')
        = matchView (viewOf o) (viewOf i) := by rw [← vO, ← vI]; rfl
    have hm := matchView_iff (viewOf o) (viewOf i) (hp.ok _ ko) (hp.ok _ ki) (hp.images _ _ ko ki)
    rw [e1] at h1
    rw [e2, e3] at h2
    by_cases hs : SameView (viewOf o) (viewOf i)
    · refine ⟨x, hx, _, ?_, h1⟩
      rcases getInputView_mem (viewOf o) (viewOf i) with e | e
      · exact .inl e
      · exact .inr ⟨e, by rw [e]; exact hs⟩
    · by_cases hsi : isSingleMipView (viewOf o) (viewOf i) = true
      · refine ⟨x, hx, _, .inl ?_, h1⟩
        unfold getInputView
        rw [hsi]; simp
      · obtain ⟨y, hy, h3⟩ := h2 (fun hc => hs (hm.1 hc))
        refine ⟨y, hy, _, .inl ?_, h3⟩
        unfold getOutputView
        rw [if_neg hsi]
  obtain ⟨x, hx, v, hv, he⟩ := htrans
  have kv : known v := by
    rcases hv with rfl | ⟨rfl, -⟩
    · exact ko
    · exact ki
  have n0 := h.nonnull a ha
  have n1 := h.nonnull b hb
  have xO : x.output.pass = a := by
    rcases he with rfl | e
    · exact pO
    · unfold Kind.transEq at e
      simp only [Bool.and_eq_true] at e
      rw [attachEq_pass e.1.2]; exact pO
  have xI : x.input.pass = b := by
    rcases he with rfl | e
    · exact pI
    · unfold Kind.transEq at e
      simp only [Bool.and_eq_true] at e
      rw [attachEq_pass e.2]; exact pI
  have xP := bv.all.all x hx
  have viaX : Via H (WritesView x.data) (ReadsView x.data) (H.pass a).id b := by
    have base : x.data = viewOf o ∨ (x.data = viewOf i ∧ SameView (viewOf o) (viewOf i)) := by
      rcases he with rfl | e
      · rcases hv with e | ⟨e, hs⟩
        · exact .inl e
        · exact .inr ⟨e, by rw [← e]; exact hs⟩
      · unfold Kind.transEq at e
        simp only [Bool.and_eq_true] at e
        obtain ⟨⟨hm, eo⟩, ei⟩ := e
        have hm : SameView x.data v :=
          (matchView_iff _ _ (hp.ok _ xP.1) (hp.ok _ kv) (hp.images _ _ xP.1 kv)).1 hm
        obtain ⟨q1, q2, q3, -⟩ := xP.2 (by rw [xI]; exact n1) (by rw [xO]; exact n0)
        have eO : viewOf x.output = viewOf o := by
          rw [← vO]
          exact h.views _ _ (h.images _ q1.1.1 _ q1.1.2).2 (h.images _ imO.1 _ imO.2).2 (attachEq_view eo)
        have eI : viewOf x.input = viewOf i := by
          rw [← vI]
          exact h.views _ _ (h.images _ q2.1.1 _ q2.1.2).2 (h.images _ imI.1 _ imI.2).2 (attachEq_view ei)
        rcases q3 with q3 | q3
        · exact .inl (q3.trans eO)
        · refine .inr ⟨q3.trans eI, ?_⟩
          rcases hv with rfl | ⟨rfl, hs⟩
          · rw [q3, eI] at hm; exact sameView_symm hm
          · exact hs
    rcases base with e | ⟨e, hs⟩
    · rw [e]; exact hvia
    · rw [e]; exact viaSame hs
  have hedge := buildEdges_complete (viewKind sources) sources H (fun t => { views := [t] }) _
    (ViewCacheExact sources H known) (fun t c ht h1 h2 hc => cv.cache t c ht h1 h2 hc) x
    (by rw [xI]; exact n1) (by rw [xO]; exact n0)
    (fun c hc => by rw [xI, xO]; exact yes _ c xP.1 viaX hc)
    ((viewKind sources).build H H.univ).all hx (Graph.empty, ((viewKind sources).build H H.univ).cache) bv.all.all bv.cache
  rw [xI, xO] at hedge
  -- later steps only add edges
  unfold compileGraph buildGraph
  simp only
  refine foldl_inv (fun g : Graph => b ∈ g.next a) _ _ (fun g n _ hg => ?_) _ ?_
  · split
    · exact (mem_attach _ _ _ _ _ _ _).2 (.inl hg)
    · exact hg
  · unfold Kind.buildEdges
    refine foldl_inv (fun s : Graph × Cache => b ∈ s.1.next a) _ _ (fun s t _ hs => ?_) _ hedge
    split
    · simp only
      split
      · exact (mem_attach _ _ _ _ _ _ _).2 (.inl hs)
      · exact hs
    · exact hs

/-! #### Non-vacuity and negations -/

/-- The chain of Props/Dependency.lean: 1 writes the view, 3 reads it and depends on 2, that depends on 1. -/
example : (compileGraph noSources chainHeap chainHeap.univ).next 0 = [1, 2]
    ∧ (compileGraph noSources chainHeap chainHeap.univ).next 1 = [3]
    ∧ (compileGraph noSources chainHeap chainHeap.univ).next 2 = []
    ∧ (compileGraph noSources chainHeap chainHeap.univ).next 3 = [] := by decide

theorem chain_wellFormed : WellFormed chainHeap (· = oView 1 0 1) := by
  refine ⟨by decide, by decide, by decide, by decide, by decide, by rintro v w rfl rfl _; rfl, by rintro v rfl; decide⟩

/-- The hypotheses of the theorems above hold of the chain. -/
example : 3 ∈ (compileGraph noSources chainHeap chainHeap.univ).next 1 := by
  refine data_dependency_is_edge_partial noSources chainHeap _ chain_wellFormed chain_ok.2.2 chain_ok.1 chain_ok.2.1 1 3
    (by decide) (by decide) (ImageAdder.outputStorage.attach 1 0 [oView 1 0 1]) (ImageAdder.sampled.attach 3 0 [oView 1 0 1])
    (by decide) (by decide) (by decide) (by decide) rfl (.inl ⟨rfl, rfl, by decide, fun _ _ => Iff.rfl⟩) ?_
  refine .step (d := 2) (by decide) ?_ ?_
    (.last (d := 1) (by decide) ⟨_, List.mem_cons_self, by decide, ⟨rfl, rfl, by decide, fun _ _ => Iff.rfl⟩⟩ rfl)
  · rintro ⟨x, hx, -⟩; simp [chainHeap, heapOf] at hx
  · rintro ⟨x, hx, -⟩; simp [chainHeap, heapOf] at hx

/-- View of levels `[base, base + n)` of an image of 4 levels. -/
def mipView (id base n : Nat) : View := ⟨id, ⟨1, 37, 4, 1, 64, 64, 1⟩, .d2, 37, ⟨Aspect.color, base, n, 0, 1⟩⟩

/-- One level of the writer's view: covered. -/
example : (compileGraph noSources (heapOf
    [([], [ImageAdder.outputStorage.attach 1 0 [mipView 1 0 4]], []),
     ([1], [ImageAdder.sampled.attach 2 0 [mipView 2 1 1]], [])]) [1, 2]).next 1 = [2] := by decide

/-- C50 is false when the reader's view isn't the writer's nor a level of it: pass 1 writes level 0, pass 2 depends on
it and reads levels 0 to 3; there is no edge between the two. -/
theorem partial_write_no_edge :
    ShareData (mipView 1 0 1) (mipView 2 0 4)
    ∧ (compileGraph noSources (heapOf
        [([], [ImageAdder.outputStorage.attach 1 0 [mipView 1 0 1]], []),
         ([1], [ImageAdder.sampled.attach 2 0 [mipView 2 0 4]], [])]) [1, 2]).next 1 = [] :=
  ⟨⟨rfl, 0, 0, (covers_iff _ _ _).2 (by decide), (covers_iff _ _ _).2 (by decide)⟩, by decide⟩

/-- C50 is false of merged views: pass 1 writes the merge of two views, pass 2 depends on it and reads it. -/
theorem merged_view_no_edge :
    (compileGraph mergedSources mergedHeap mergedHeap.univ).next 1 = [] ∧ (mergedHeap.pass 2).deps = [1] := by
  decide

/-- Pass 1 writes view 1; pass 2 depends on it, reads view 1 and view 2 that nobody writes. -/
def lostHeap : Heap := heapOf
  [([], [ImageAdder.outputStorage.attach 1 0 [oView 1 0 1]], []),
   ([1], [ImageAdder.sampled.attach 2 0 [oView 1 0 1], ImageAdder.sampled.attach 2 1 [oView 2 4 1]], [])]

/-- The transition of an attachment without writer is recorded for its pass, but missing in the list of all
transitions when the pass also reads what another one writes: the last transition of the pass is taken for it. -/
theorem remaining_transition_lost :
    (((viewKind noSources).build lostHeap [1, 2]).ins.map fun e => (e.1, e.2.map fun t => t.data.id))
      = [(1, []), (2, [2, 1])]
    ∧ ((viewKind noSources).build lostHeap [1, 2]).all.map (fun t => t.data.id) = [1] := by
  decide

end Verif.Deps
