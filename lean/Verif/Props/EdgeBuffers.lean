import Verif.Props.EdgeData
/-! C50, C83: the edges of the compiled graph that stand for buffers. -/
namespace Verif.Deps
open Verif.Att

/-- The attachment writes a storage buffer. -/
def FillsBuffer (a : Attachment) : Prop := a.isOutput = true ∧ a.isStorageBuffer = true

/-- The attachment reads a storage, uniform or implicit buffer. -/
def TakesBuffer (a : Attachment) : Prop :=
  a.isInput = true ∧ (a.isStorageBuffer = true ∨ (a.isBuffer = true ∧ a.buf.isUniform = true) ∨ a.isTransitionBuffer = true)

/-- What the `add…` methods of a pass declare: storage outputs fill, storage, uniform and implicit inputs take. -/
theorem adders_fill_take (m : BufferAdder) (p b : Nat) (bs : List Nat) (v o n : Nat) :
    (m = .outputStorage ∨ m = .clearableOutputStorage ∨ m = .inOutStorage → FillsBuffer (m.attach p b bs v o n))
    ∧ (m = .inputStorage ∨ m = .inOutStorage ∨ m = .uniform → TakesBuffer (m.attach p b bs v o n)) := by
  constructor
  · rintro (rfl | rfl | rfl) <;> unfold FillsBuffer Attachment.isStorageBuffer <;> attsimp
  · rintro (rfl | rfl | rfl) <;> unfold TakesBuffer Attachment.isStorageBuffer <;> attsimp

theorem fills_iff (a : Attachment) : bufferKind.isOutput a = true ↔ FillsBuffer a := by
  simp [bufferKind, FillsBuffer]

theorem takes_iff (a : Attachment) : bufferKind.isInput a = true ↔ TakesBuffer a := by
  simp [bufferKind, TakesBuffer, or_assoc]

theorem attachEq_buffers {a b : Attachment} (h : attachEq a b = true) : a.buf.buffers = b.buf.buffers := by
  unfold attachEq bufEq at h
  simp only [Bool.and_eq_true, beq_iff_eq] at h
  exact h.2.1.1.1.2

/-- C50, buffers (partial: first handles that differ in their 32 low bits; using the buffer as storage, even to read, counts as
writing). A pass that takes a buffer another one fills, and depends on it through passes that don't use the buffer as storage, is a
successor of it in the graph, and the edge carries a transition of the buffer between the two. -/
theorem buffer_dependency_is_edge_partial (sources : View → List View) (H : Heap) (known : View → Prop)
    (h : WellFormed H known) (hcl : Closed H) (hac : Acyclic H)
    (hlow : ∀ b c, UsedBuffer H b → UsedBuffer H c → firstBuffer b % 2 ^ 32 = firstBuffer c % 2 ^ 32 → b = c)
    (a b : Nat) (ha : a ∈ H.univ) (hb : b ∈ H.univ) (o i : Attachment) (ho : o ∈ (H.pass a).buffers) (hi : i ∈ (H.pass b).buffers)
    (hout : FillsBuffer o) (hin : TakesBuffer i) (hsame : o.buf.buffers = i.buf.buffers)
    (hvia : Via H (StoresBuffer o.buf.buffers) (StoresBuffer o.buf.buffers) (H.pass a).id b) :
    b ∈ (compileGraph sources H H.univ).next a
    ∧ ∃ t ∈ ((compileGraph sources H H.univ).attaches a b).buffers, t.data = o.buf.buffers
        ∧ attachEq t.output o = true ∧ attachEq t.input i = true := by
  have ko : UsedBuffer H o.buf.buffers := ⟨o, ⟨by rw [h.buffers a ha o ho]; exact ha, by rw [h.buffers a ha o ho]; exact ho⟩, rfl⟩
  have cb := buffer_ctx H (fun _ _ => False) (fun _ _ h => h) (fun _ _ h => h.elim) (BufferCacheExact H (UsedBuffer H))
    (fun a t b c ha ht hb hc => (bufferCacheExact_step hcl hac h.id32 hlow a t b ha ht hb c hc).1)
  have hI0 : BufferCacheExact H (UsedBuffer H) Cache.empty := fun _ _ _ _ _ _ hx => by simp [Cache.empty] at hx
  have hat := buffers_attached H known h
  have hs : ∀ x y, BufferOf H x → BufferOf H y → bufferKind.same (bufferKind.get x) (bufferKind.get y) = true →
      bufferKind.get x = bufferKind.get y := fun x y _ _ hs => by simpa [bufferKind] using hs
  have hne : ∀ x, BufferOf H x → bufferKind.split x ≠ [] := fun x _ => by simp [bufferKind]
  obtain ⟨o', ho', heldO⟩ := cb.collect_out H.univ hat hs hne a ha o ho ((fills_iff o).2 hout)
  obtain ⟨i', hi', heldI⟩ := cb.collect_in H.univ hat hs hne b hb i hi ((takes_iff i).2 hin)
  have eo : attachEq o' o = true := by
    rcases ho' with rfl | e
    · exact attachEq_refl _
    · exact e
  have ei : attachEq i' i = true := by
    rcases hi' with rfl | e
    · exact attachEq_refl _
    · exact e
  have pO : o'.pass = a := (attachEq_pass eo).trans (h.buffers a ha o ho)
  have pI : i'.pass = b := (attachEq_pass ei).trans (h.buffers b hb i hi)
  have bO := attachEq_buffers eo
  have bI := attachEq_buffers ei
  have hrec := cb.build_recorded H.univ hat hI0 o' i' o.buf.buffers i.buf.buffers heldO heldI
    (by simp [bufferKind, hsame]) (by
    intro c hc
    change (bufferKind.dependsOn H i'.pass o'.pass i'.buf.buffers c).1 = true
    rw [pO, pI, bI, ← hsame]
    exact (bufferCacheExact_step hcl hac h.id32 hlow b a _ hb ha ko c hc).2.2 hvia)
  obtain ⟨⟨x, hx, h1⟩, -⟩ := hrec
  have hx1 : x.data = o.buf.buffers ∧ attachEq x.output o' = true ∧ attachEq x.input i' = true := by
    rcases h1 with rfl | e
    · exact ⟨bO, attachEq_refl _, attachEq_refl _⟩
    · unfold Kind.transEq at e
      simp only [Bool.and_eq_true] at e
      refine ⟨?_, e.1.2, e.2⟩
      have : x.data = o'.buf.buffers := by simpa [bufferKind] using e.1.1
      rw [this, bO]
  have xO : x.output.pass = a := (attachEq_pass hx1.2.1).trans pO
  have xI : x.input.pass = b := (attachEq_pass hx1.2.2).trans pI
  obtain ⟨-, c2⟩ := edge_buffer_transitions_partial sources H known h hcl hac hlow
  obtain ⟨t, ht, he⟩ := c2 x hx (by rw [xO]; exact h.nonnull a ha) (by rw [xI]; exact h.nonnull b hb)
    (by rw [xO, xI, hx1.1]; exact hvia)
  rw [xO, xI] at ht
  have hx2 : t.data = x.data ∧ attachEq t.output x.output = true ∧ attachEq t.input x.input = true := by
    rcases he with rfl | e
    · exact ⟨rfl, attachEq_refl _, attachEq_refl _⟩
    · unfold Kind.transEq at e
      simp only [Bool.and_eq_true] at e
      exact ⟨by simpa [bufferKind] using e.1.1, e.1.2, e.2⟩
  refine ⟨?_, t, ht, hx2.1.trans hx1.1, attachEq_trans (attachEq_trans hx2.2.1 hx1.2.1) eo,
    attachEq_trans (attachEq_trans hx2.2.2 hx1.2.2) ei⟩
  obtain ⟨-, -, -, r4⟩ := graph_rooted sources H known h hcl
  rw [← r4 a b]
  unfold Graph.attaches at ht
  cases hl : ((compileGraph sources H H.univ).prev b).lookup a with
  | none => rw [hl] at ht; simp at ht
  | some m =>
    have : (a, m) ∈ (compileGraph sources H H.univ).prev b := by
      generalize (compileGraph sources H H.univ).prev b = l at hl
      induction l with
      | nil => simp at hl
      | cons e l ih =>
        obtain ⟨k, w⟩ := e
        rw [List.lookup_cons] at hl
        split at hl
        · rename_i hk
          have hk := beq_iff_eq.1 hk
          cases hl; subst hk; simp
        · exact List.mem_cons_of_mem _ (ih hl)
    exact List.mem_map.2 ⟨_, this, rfl⟩

/-- Every reported transition of a buffer between two passes fills it in the first and takes it in the second. -/
theorem buffer_transitions_fill_take (H : Heap) (known : View → Prop) (h : WellFormed H known) (t : Trans (List Nat))
    (ht : t ∈ (bufferKind.build H H.univ).all) (h1 : t.output.pass ≠ 0) (h2 : t.input.pass ≠ 0) :
    FillsBuffer t.output ∧ TakesBuffer t.input ∧ t.data = t.output.buf.buffers
    ∧ firstBuffer t.output.buf.buffers = firstBuffer t.input.buf.buffers
    ∧ t.output ∈ (H.pass t.output.pass).buffers ∧ t.input ∈ (H.pass t.input.pass).buffers := by
  have cb : Ctx bufferKind H (fun a => BufferOf H a ∧ FillsBuffer a) (fun a => BufferOf H a ∧ TakesBuffer a) (BufferOf H) firstBuffer
      (fun t => t.output.pass ≠ 0 → t.input.pass ≠ 0 → FillsBuffer t.output ∧ TakesBuffer t.input ∧ t.data = t.output.buf.buffers
        ∧ firstBuffer t.output.buf.buffers = firstBuffer t.input.buf.buffers
        ∧ t.output ∈ (H.pass t.output.pass).buffers ∧ t.input ∈ (H.pass t.input.pass).buffers)
      (fun _ _ => False) (fun _ => True) := by
    constructor
    · exact fun a ha => ha.1
    · exact fun a ha => ha.1
    · intro a x hx; simpa [bufferKind] using hx
    · intro a b _ _ hs
      have : a.buf.buffers = b.buf.buffers := by simpa [bufferKind] using hs
      exact congrArg firstBuffer this
    · intro x y hov; simpa [bufferKind] using hov
    · intro o i ho hi hg
      exact ⟨fun _ _ => ⟨ho.2, hi.2, rfl, hg, ho.1.2, hi.1.2⟩, fun _ _ => ⟨ho.2, hi.2, rfl, hg, ho.1.2, hi.1.2⟩⟩
    · intro a ha
      exact ⟨fun h2 _ => absurd rfl h2, fun _ h2 => absurd rfl h2⟩
    · exact fun _ _ h => h
    · exact fun _ _ _ _ h => h.elim
    · exact fun _ _ _ _ _ _ => trivial
    · exact fun _ _ _ _ _ _ => trivial
  have hat : Attached bufferKind H H.univ (fun a => BufferOf H a ∧ FillsBuffer a) (fun a => BufferOf H a ∧ TakesBuffer a) := by
    constructor
    · intro n hn a ha hs
      have e := h.buffers n hn a ha
      exact ⟨⟨by rw [e]; exact hn, by rw [e]; exact ha⟩, (fills_iff a).1 hs⟩
    · intro n hn a ha hs
      have e := h.buffers n hn a ha
      exact ⟨⟨by rw [e]; exact hn, by rw [e]; exact ha⟩, (takes_iff a).1 hs⟩
  exact (cb.build H.univ hat trivial).all.all t ht h1 h2

/-- The edges between passes that stand for a buffer are exactly those. -/
theorem buffer_edge_iff_partial (sources : View → List View) (H : Heap) (known : View → Prop)
    (h : WellFormed H known) (hcl : Closed H) (hac : Acyclic H)
    (hlow : ∀ b c, UsedBuffer H b → UsedBuffer H c → firstBuffer b % 2 ^ 32 = firstBuffer c % 2 ^ 32 → b = c)
    (a b : Nat) (ha : a ∈ H.univ) (hb : b ∈ H.univ) (bs : List Nat) :
    (∃ t ∈ ((compileGraph sources H H.univ).attaches a b).buffers, t.data = bs)
    ↔ Via H (StoresBuffer bs) (StoresBuffer bs) (H.pass a).id b
      ∧ (∃ o ∈ (H.pass a).buffers, FillsBuffer o ∧ o.buf.buffers = bs)
      ∧ (∃ i ∈ (H.pass b).buffers, TakesBuffer i ∧ i.buf.buffers = bs) := by
  constructor
  · rintro ⟨t, ht, rfl⟩
    obtain ⟨c1, -⟩ := edge_buffer_transitions_partial sources H known h hcl hac hlow
    obtain ⟨-, -, c3, -⟩ := compile_attaches sources H known h (fun _ => True) (fun _ => True) (fun _ => True) (fun _ => False)
      (fun _ => True) (fun _ => False) trivial trivial
      (fun _ _ _ _ _ _ _ _ => trivial) (fun _ _ _ _ _ _ => ⟨fun _ => trivial, fun e => e.elim⟩)
      (fun _ _ _ _ _ _ _ _ => trivial) (fun _ _ _ _ _ _ => ⟨fun _ => trivial, fun e => e.elim⟩)
    have hv := c1 a b t ht
    obtain ⟨hm, -, rfl, rfl, h5, h6, -⟩ := c3 a b t ht
    obtain ⟨g1, g2, g3, g4, g5, g6⟩ := buffer_transitions_fill_take H known h t hm h5 h6
    refine ⟨hv, ⟨_, g5, g1, g3.symm⟩, _, g6, g2, ?_⟩
    rw [g3]
    exact hlow _ _ ⟨_, ⟨hb, g6⟩, rfl⟩ ⟨_, ⟨ha, g5⟩, rfl⟩ (by rw [g4])
  · rintro ⟨hv, ⟨o, ho, ho2, rfl⟩, i, hi, hi2, he⟩
    obtain ⟨-, t, ht, e, -⟩ := buffer_dependency_is_edge_partial sources H known h hcl hac hlow a b ha hb o i ho hi ho2 hi2 he.symm hv
    exact ⟨t, ht, e⟩

/-- The hypotheses are met by the chain of Props/EdgeData.lean: pass 1 fills buffer 7, 3 reads it and depends on 2, that depends on 1. -/
example : 3 ∈ (compileGraph noSources bufferChain bufferChain.univ).next 1 := by
  obtain ⟨h1, h2, h3, h4, -⟩ := bufferChain_ok
  refine (buffer_dependency_is_edge_partial noSources bufferChain _ h1 h2 h3 h4 1 3 (by decide) (by decide)
    (BufferAdder.outputStorage.attach 1 0 [7] 0 0 64) (BufferAdder.inputStorage.attach 3 0 [7] 0 0 64) (by decide) (by decide)
    ((adders_fill_take _ _ _ _ _ _ _).1 (.inl rfl)) ((adders_fill_take _ _ _ _ _ _ _).2 (.inl rfl)) rfl ?_).1
  refine .step (d := 2) (by decide) ?_ ?_ (.last (d := 1) (by decide) ⟨_, List.mem_cons_self, by decide, rfl⟩ rfl)
  · rintro ⟨x, hx, -⟩; simp [bufferChain, heapOf] at hx
  · rintro ⟨x, hx, -⟩; simp [bufferChain, heapOf] at hx

/-! Negations -/

/-- Pass 1 fills buffer 7 with a copy; pass 2 depends on it and reads it. -/
def copiedBuffer : Heap := heapOf
  [([], [], [BufferAdder.transferOutput.attach 1 0 [7] 0 0 64]), ([1], [], [BufferAdder.inputStorage.attach 2 0 [7] 0 0 64])]

/-- C50 is false of buffers filled by transfers: there is no edge. -/
theorem copied_buffer_no_edge : WritesBuffer [7] (copiedBuffer.pass 1) ∧ ReadsBuffer [7] (copiedBuffer.pass 2)
    ∧ 1 ∈ (copiedBuffer.pass 2).deps ∧ (compileGraph noSources copiedBuffer copiedBuffer.univ).next 1 = [] :=
  ⟨⟨_, List.mem_cons_self, by decide, rfl⟩, ⟨_, List.mem_cons_self, by decide, rfl⟩, by decide, by decide⟩

/-- Pass 1 fills buffer 7; pass 2 depends on it and reads it; pass 3 depends on pass 2 only and reads it too. -/
def readTwice : Heap := heapOf
  [([], [], [BufferAdder.outputStorage.attach 1 0 [7] 0 0 64]), ([1], [], [BufferAdder.inputStorage.attach 2 0 [7] 0 0 64]),
   ([2], [], [BufferAdder.inputStorage.attach 3 0 [7] 0 0 64])]

/-- C50 is false of a buffer read twice: the first reader counts as a writer and hides the pass that fills the buffer, but, as it
doesn't write, there is no edge from it either: the second reader is a successor of the root only. -/
theorem second_reader_no_edge : WritesBuffer [7] (readTwice.pass 1) ∧ ¬ WritesBuffer [7] (readTwice.pass 2)
    ∧ ReadsBuffer [7] (readTwice.pass 3) ∧ DependsOn readTwice 3 1
    ∧ (compileGraph noSources readTwice readTwice.univ).next 0 = [1, 3]
    ∧ (compileGraph noSources readTwice readTwice.univ).next 1 = [2]
    ∧ (compileGraph noSources readTwice readTwice.univ).next 2 = [] := by
  refine ⟨⟨_, List.mem_cons_self, by decide, rfl⟩, ?_, ⟨_, List.mem_cons_self, by decide, rfl⟩, ?_, by decide, by decide, by decide⟩
  · rintro ⟨x, hx, h, -⟩
    have : x = BufferAdder.inputStorage.attach 2 0 [7] 0 0 64 := by simpa [readTwice, heapOf] using hx
    subst this
    revert h; decide
  · exact .step (d := 2) (by decide) (.direct (by decide))

end Verif.Deps
