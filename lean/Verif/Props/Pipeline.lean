import Verif.Lemmas.Pipeline
/-
C35 and the properties of programs, descriptors and pipelines.
-/
namespace Verif.Pipe
open Verif.Att

/-- The program a slot is to be created with. -/
def St.wanted (s : St) (k : Nat) : Option Nat :=
  match s.creator with
  | some (_, c) => some (c k)
  | none => s.programs[k]?

/-- How many sets exist. -/
def St.used (s : St) : Nat := s.sets.countP (· ≠ 0)

/-- A pass in order. -/
structure Inv (pass : Nat) (is : List AddImage) (bs : List AddBuffer) (s : St) (d : Dev) : Prop where
  dev : d = after Dev.empty s.evs
  images : s.images = is.map (·.attach pass)
  buffers : s.buffers = bs.map (·.attach pass)
  distinct : ((promised is bs).map (·.1)).Nodup
  pos : 0 < s.sets.length
  small : (promised is bs).length * s.sets.length < 4294967296
  valid : TraceValid Dev.empty s.evs
  next : 0 < s.next
  free : ∀ h, s.next ≤ h → d.setLayouts h = none ∧ d.pipeLayouts h = none ∧ d.pools h = none ∧ d.sets h = none ∧
    d.pipes h = none
  len : s.pipelines.length = s.programs.length
  clen : ∀ n c, s.creator = some (n, c) → s.programs.length = n
  off : s.layout = 0 → s.pool = 0 ∧ s.setLayout = 0 ∧ (∀ h ∈ s.sets, h = 0) ∧ (∀ h ∈ s.pipelines, h = 0)
  on : s.layout ≠ 0 → s.pool ≠ 0 ∧ s.setLayout ≠ 0 ∧ s.bindings = promised is bs ∧
    d.setLayouts s.setLayout = some s.bindings ∧ d.pipeLayouts s.layout = some s.setLayout ∧
    ∃ P, d.pools s.pool = some P ∧ P.sets + s.used = s.sets.length ∧
      ∀ t, P.room t = P.sets * countType (promised is bs) t
  sets : ∀ (i h : Nat), s.sets[i]? = some h → h ≠ 0 →
    d.sets h = some ⟨s.pool, promised is bs, descriptors is bs i⟩ ∧
      (descriptors is bs i).map (fun w => (w.binding, w.type)) = promised is bs
  pipes : ∀ (k h : Nat), s.pipelines[k]? = some h → h ≠ 0 →
    ∃ P, d.pipes h = some P ∧ P.layout = s.layout ∧ s.wanted k = some P.program
  queue : ∀ h ∈ s.queue, d.pipes h ≠ none
  nodup : (s.pipelines.filter (· ≠ 0) ++ s.queue).Nodup
  only1 : ∀ h, d.setLayouts h ≠ none → h = s.setLayout ∧ s.layout ≠ 0
  only2 : ∀ h, d.pipeLayouts h ≠ none → h = s.layout ∧ s.layout ≠ 0
  only3 : ∀ h, d.pools h ≠ none → h = s.pool ∧ s.layout ≠ 0
  only4 : ∀ h D, d.sets h = some D → D.pool = s.pool ∧ s.layout ≠ 0

theorem new_inv (pass : Nat) (is : List AddImage) (bs : List AddBuffer) (programs : List Nat)
    (creator : Option (Nat × (Nat → Nat))) (n : Nat) (hd : ((promised is bs).map (·.1)).Nodup) (hn : 0 < n)
    (hs : (promised is bs).length * n < 4294967296) :
    Inv pass is bs (St.new (is.map (·.attach pass)) (bs.map (·.attach pass)) programs creator n) Dev.empty := by
  refine ⟨rfl, rfl, rfl, hd, by simpa [St.new] using hn, by simpa [St.new] using hs, trivial, by simp [St.new],
    ?_, by simp [St.new], ?_, ?_, by simp [St.new], ?_, ?_, by simp [St.new], ?_, ?_, ?_, ?_, ?_⟩
  · intro h _; simp [Dev.empty]
  · intro m c h
    simp only [St.new] at h ⊢
    subst h
    simp; omega
  · intro _; simp [St.new]
  · intro i h hh h0
    exact absurd (List.eq_of_mem_replicate (List.mem_of_getElem? hh)) h0
  · intro i h hh h0
    exact absurd (List.eq_of_mem_replicate (List.mem_of_getElem? hh)) h0
  · simp [St.new]
  all_goals simp [Dev.empty]

theorem used_zero {s : St} (h : ∀ x ∈ s.sets, x = 0) : s.used = 0 := by
  simp only [St.used, List.countP_eq_zero]
  intro x hx; simp [h x hx]

theorem initialise_inv {pass is bs s d} (I : Inv pass is bs s d) :
    ∃ d', Inv pass is bs s.initialise d' ∧ d'.pipes = d.pipes := by
  by_cases hl : s.layout = 0
  · obtain ⟨o1, o2, o3, o4⟩ := I.off hl
    have f0 := I.free s.next (by omega)
    have f1 := I.free (s.next + 1) (by omega)
    have f2 := I.free (s.next + 2) (by omega)
    have hp := I.next
    have hb : fillBindings s.images s.buffers = promised is bs := by
      rw [I.images, I.buffers, fillBindings_promised]
    have e : s.initialise = { s with
      bindings := promised is bs, setLayout := s.next, layout := s.next + 1, pool := s.next + 2, next := s.next + 3
      evs := s.evs ++ [.createSetLayout s.next (promised is bs), .createPipeLayout (s.next + 1) s.next,
        .createPool (s.next + 2) s.sets.length (getBindingsSizes (promised is bs) s.sets.length)] } := by
      simp only [St.initialise, hl, ite_true, hb]
    have noSL : ∀ h, d.setLayouts h = none := fun h => by
      cases hx : d.setLayouts h with
      | none => rfl
      | some x => exact absurd hl (I.only1 h (by simp [hx])).2
    have noPL : ∀ h, d.pipeLayouts h = none := fun h => by
      cases hx : d.pipeLayouts h with
      | none => rfl
      | some x => exact absurd hl (I.only2 h (by simp [hx])).2
    have noP : ∀ h, d.pools h = none := fun h => by
      cases hx : d.pools h with
      | none => rfl
      | some x => exact absurd hl (I.only3 h (by simp [hx])).2
    have noS : ∀ h, d.sets h = none := fun h => by
      cases hx : d.sets h with
      | none => rfl
      | some x => exact absurd hl (I.only4 h x hx).2
    refine ⟨⟨upd d.setLayouts s.next (some (promised is bs)), upd d.pipeLayouts (s.next + 1) (some s.next),
      upd d.pools (s.next + 2) (some ⟨s.sets.length, capacity (getBindingsSizes (promised is bs) s.sets.length)⟩),
      d.sets, d.pipes⟩, ?_, rfl⟩
    rw [e]
    refine ⟨?_, I.images, I.buffers, I.distinct, I.pos, I.small, ?_, by simp, ?_, I.len, I.clen, ?_, ?_, ?_, ?_, I.queue,
      I.nodup, ?_, ?_, ?_, ?_⟩
    · rw [after_append, ← I.dev]; rfl
    · rw [traceValid_append, ← I.dev]
      refine ⟨I.valid, ⟨by omega, f0.1, I.distinct⟩, ⟨by omega, f1.2.1, by simp [step, upd_self]⟩,
        ⟨by omega, f2.2.2.1, I.pos⟩, trivial⟩
    · intro h hh
      simp only at hh
      have := I.free h (by omega)
      simp only [upd]
      rw [if_neg (by omega), if_neg (by omega), if_neg (by omega)]
      exact this
    · intro h; simp at h
    · intro _
      refine ⟨by simp, by simp; omega, rfl, by simp [upd_self], by simp [upd_self], _, upd_self .., ?_, ?_⟩
      · have : St.used s = 0 := used_zero o3
        simpa [St.used] using this
      · intro t; exact capacity_sizes _ _ I.small t
    · intro i h hh h0
      exact absurd (o3 h (List.mem_of_getElem? hh)) h0
    · intro k h hh h0
      exact absurd (o4 h (List.mem_of_getElem? hh)) h0
    · intro h hh
      simp only [upd] at hh
      split at hh
      · next e => exact ⟨e, by simp⟩
      · exact absurd (noSL h) hh
    · intro h hh
      simp only [upd] at hh
      split at hh
      · next e => exact ⟨e, by simp⟩
      · exact absurd (noPL h) hh
    · intro h hh
      simp only [upd] at hh
      split at hh
      · next e => exact ⟨e, by simp⟩
      · exact absurd (noP h) hh
    · intro h D hh
      simp only [noS h] at hh
      cases hh
  · refine ⟨d, ?_, rfl⟩
    simp only [St.initialise, hl, ite_false]; exact I

theorem initialise_on (s : St) : s.initialise.layout ≠ 0 := by
  simp only [St.initialise]
  split
  · simp
  · assumption

/-! ### Destructions -/

def Dev.without (d : Dev) (hs : List Nat) : Dev := { d with pipes := fun h => if h ∈ hs then none else d.pipes h }

theorem after_destroy (hs : List Nat) : ∀ d : Dev, after d (hs.map .destroyPipe) = d.without hs := by
  induction hs with
  | nil => intro d; simp [after, Dev.without]
  | cons x xs ih =>
    intro d
    have := ih (step d (.destroyPipe x))
    simp only [after, List.map_cons, List.foldl_cons] at this ⊢
    rw [this]
    simp only [Dev.without, step, upd, List.mem_cons]
    congr 1
    funext h
    by_cases h1 : h ∈ xs <;> by_cases h2 : h = x <;> simp [h1, h2]

theorem valid_destroy (hs : List Nat) : ∀ d : Dev, hs.Nodup → (∀ h ∈ hs, d.pipes h ≠ none) →
    TraceValid d (hs.map .destroyPipe) := by
  induction hs with
  | nil => intro d _ _; trivial
  | cons x xs ih =>
    intro d hn hl
    rw [List.nodup_cons] at hn
    refine ⟨hl x (by simp), ih _ hn.2 ?_⟩
    intro h hh
    have hx : h ≠ x := fun e => hn.1 (e ▸ hh)
    simp only [step, upd, hx, ite_false]
    exact hl h (by simp [hh])

theorem mem_pipes {pass is bs s d} (I : Inv pass is bs s d) {h : Nat} (hh : h ∈ s.pipelines) (h0 : h ≠ 0) :
    d.pipes h ≠ none := by
  obtain ⟨k, hk⟩ := List.getElem?_of_mem hh
  obtain ⟨P, hP, -⟩ := I.pipes k h hk h0
  rw [hP]; simp

theorem run_inv {pass is bs s d} (I : Inv pass is bs s d) :
    ∃ d', Inv pass is bs { s with queue := [], evs := s.evs ++ s.queue.map .destroyPipe } d' ∧
      d' = d.without s.queue := by
  refine ⟨d.without s.queue, ?_, rfl⟩
  have hq := (List.nodup_append.mp I.nodup)
  refine ⟨?_, I.images, I.buffers, I.distinct, I.pos, I.small, ?_, I.next, ?_, I.len, I.clen, I.off, I.on, I.sets, ?_,
    by simp, ?_, I.only1, I.only2, I.only3, I.only4⟩
  · rw [after_append, ← I.dev, after_destroy]
  · rw [traceValid_append, ← I.dev]
    exact ⟨I.valid, valid_destroy _ _ hq.2.1 I.queue⟩
  · intro h hh
    obtain ⟨a, b, c, e, f⟩ := I.free h hh
    refine ⟨a, b, c, e, ?_⟩
    simp [Dev.without, f]
  · intro k h hk h0
    obtain ⟨P, hP, h2⟩ := I.pipes k h hk h0
    refine ⟨P, ?_, h2⟩
    simp only [Dev.without]
    rw [if_neg, hP]
    intro hm
    exact hq.2.2 h (List.mem_filter.mpr ⟨List.mem_of_getElem? hk, by simp [h0]⟩) h hm rfl
  · simp only [List.append_nil]; exact hq.1

/-- What is left after `cleanup`: the pipelines not in the slots. -/
theorem cleanup_inv {pass is bs s d} (I : Inv pass is bs s d) :
    ∃ d', Inv pass is bs s.cleanup d' ∧ d'.pipes = (d.without (s.pipelines.filter (· ≠ 0))).pipes := by
  have hq := (List.nodup_append.mp I.nodup)
  by_cases hl : s.layout = 0
  · obtain ⟨o1, o2, o3, o4⟩ := I.off hl
    have hf : s.pipelines.filter (· ≠ 0) = [] := by
      rw [List.filter_eq_nil_iff]; intro x hx; simp [o4 x hx]
    have e : s.cleanup = { s with bindings := [], sets := s.sets.map fun _ => 0, pipelines := s.pipelines.map fun _ => 0 } := by
      simp only [St.cleanup, o1, o2, hl, hf]
      simp
    refine ⟨d, ?_, by rw [hf]; simp [Dev.without]⟩
    rw [e]
    refine ⟨I.dev, I.images, I.buffers, I.distinct, by simpa using I.pos, by simpa using I.small, I.valid, I.next, I.free,
      by simpa using I.len, I.clen, ?_, ?_, ?_, ?_, I.queue, ?_, I.only1, I.only2, I.only3, I.only4⟩
    · intro _; exact ⟨o1, o2, by simp, by simp⟩
    · intro h; exact absurd hl h
    · intro i h hh h0
      have := List.mem_of_getElem? hh
      simp only [List.mem_map] at this
      obtain ⟨_, _, e⟩ := this
      exact absurd e.symm h0
    · intro i h hh h0
      have := List.mem_of_getElem? hh
      simp only [List.mem_map] at this
      obtain ⟨_, _, e⟩ := this
      exact absurd e.symm h0
    · have : (s.pipelines.map fun _ => 0).filter (· ≠ 0) = [] := by
        rw [List.filter_eq_nil_iff]; intro x hx; simp at hx; simp [hx.2.symm]
      rw [this]; exact hq.2.1
  · obtain ⟨n1, n2, n3, n4, n5, P, n6, n7, n8⟩ := I.on hl
    have e : s.cleanup = { s with
      bindings := [], sets := s.sets.map fun _ => 0, pool := 0, pipelines := s.pipelines.map fun _ => 0, layout := 0
      setLayout := 0
      evs := s.evs ++ (.destroyPool s.pool :: ((s.pipelines.filter (· ≠ 0)).map .destroyPipe ++
        [.destroyPipeLayout s.layout, .destroySetLayout s.setLayout])) } := by
      simp only [St.cleanup]
      rw [if_pos n1, if_pos hl, if_pos n2]
      simp
    let d1 := step d (.destroyPool s.pool)
    let d2 := d1.without (s.pipelines.filter (· ≠ 0))
    refine ⟨step (step d2 (.destroyPipeLayout s.layout)) (.destroySetLayout s.setLayout), ?_, rfl⟩
    rw [e]
    refine ⟨?_, I.images, I.buffers, I.distinct, by simpa using I.pos, by simpa using I.small, ?_, I.next, ?_,
      by simpa using I.len, I.clen, ?_, ?_, ?_, ?_, ?_, ?_, ?_, ?_, ?_, ?_⟩
    · show _ = after Dev.empty (s.evs ++ ([.destroyPool s.pool] ++ ((s.pipelines.filter (· ≠ 0)).map .destroyPipe ++
        [.destroyPipeLayout s.layout, .destroySetLayout s.setLayout])))
      rw [after_append, ← I.dev, after_append, after_append, after_destroy]
      rfl
    · rw [traceValid_append, ← I.dev]
      refine ⟨I.valid, by simp [Valid, n6], ?_⟩
      rw [traceValid_append, after_destroy]
      refine ⟨valid_destroy _ _ hq.1 ?_, ?_, ?_, trivial⟩
      · intro h hh
        simp only [List.mem_filter, decide_eq_true_eq] at hh
        exact mem_pipes I hh.1 hh.2
      · show d.pipeLayouts s.layout ≠ none
        rw [n5]; simp
      · show d.setLayouts s.setLayout ≠ none
        rw [n4]; simp
    · intro h hh
      obtain ⟨a, b, c, f, g⟩ := I.free h hh
      simp only [d2, d1, step, Dev.without, upd]
      refine ⟨?_, ?_, ?_, ?_, ?_⟩
      · split <;> simp [a]
      · split <;> simp [b]
      · split <;> simp [c]
      · simp [f]
      · split <;> simp [g]
    · intro _; exact ⟨rfl, rfl, by simp, by simp⟩
    · intro h; exact absurd rfl h
    · intro i h hh h0
      have := List.mem_of_getElem? hh
      simp only [List.mem_map] at this
      obtain ⟨_, _, e⟩ := this
      exact absurd e.symm h0
    · intro i h hh h0
      have := List.mem_of_getElem? hh
      simp only [List.mem_map] at this
      obtain ⟨_, _, e⟩ := this
      exact absurd e.symm h0
    · intro h hh
      simp only [d2, d1, step, Dev.without]
      rw [if_neg]
      · exact I.queue h hh
      · intro hm; exact hq.2.2 h hm h hh rfl
    · have : (s.pipelines.map fun _ => 0).filter (· ≠ 0) = [] := by
        rw [List.filter_eq_nil_iff]; intro x hx; simp at hx; simp [hx.2.symm]
      rw [this]; exact hq.2.1
    · intro h hh
      simp only [d2, d1, step, Dev.without, upd] at hh
      split at hh
      · exact absurd rfl hh
      · next hne => exact absurd (I.only1 h hh).1 hne
    · intro h hh
      simp only [d2, d1, step, Dev.without, upd] at hh
      split at hh
      · exact absurd rfl hh
      · next hne => exact absurd (I.only2 h hh).1 hne
    · intro h hh
      simp only [d2, d1, step, Dev.without, upd] at hh
      split at hh
      · exact absurd rfl hh
      · next hne => exact absurd (I.only3 h hh).1 hne
    · intro h D hh
      simp only [d2, d1, step, Dev.without, Option.bind_eq_some_iff] at hh
      obtain ⟨D', h1, h2⟩ := hh
      rw [if_pos (I.only4 h D' h1).1] at h2
      cases h2

/-! ### Pipelines -/

theorem slot_lt {s : St} {i k : Nat} (h : s.slot i = some k) : k < s.pipelines.length ∧
    k = if s.programs.length = 1 then 0 else i := by
  simp only [St.slot] at h
  split at h
  · next h1 =>
    split at h
    · next h2 => simp at h; subst h; simp [h1, h2]
    · cases h
  · next h1 =>
    split at h
    · next h2 => simp at h; subst h; simp [h1, h2]
    · cases h

/-- `getProgram` answers the wanted program of the slot, and changes nothing but the cached programs. -/
theorem getProgram_ok {pass is bs s d} (I : Inv pass is bs s d) {i p : Nat} {s' : St} (h : s.getProgram i = some (p, s')) :
    Inv pass is bs s' d ∧ s'.pipelines = s.pipelines ∧ s'.queue = s.queue ∧ s'.layout = s.layout ∧ s'.next = s.next ∧
    s'.evs = s.evs ∧ s'.renderPass = s.renderPass ∧ s'.vertexBuffer = s.vertexBuffer ∧ s'.sets = s.sets ∧
    s'.programs.length = s.programs.length ∧ (s.creator = none → s' = s) ∧ s'.creator = s.creator ∧
    (∀ k, s'.wanted k = s.wanted k) ∧ s'.slot = s.slot ∧
    s'.wanted (if s.programs.length = 1 then 0 else i) = some p := by
  simp only [St.getProgram, Option.bind_eq_some_iff] at h
  obtain ⟨t, ht, h⟩ := h
  simp only [St.cacheProgram] at ht
  have key : ∃ q, t = { s with programs := q } ∧ q.length = s.programs.length ∧ (s.creator = none → q = s.programs) ∧
      ∀ n c, s.creator = some (n, c) → i < n ∧ q = s.programs.set i (c i) := by
    split at ht
    · next n c hc =>
      split at ht
      · next hi =>
        simp at ht; subst ht
        refine ⟨_, rfl, by simp, by simp [hc], ?_⟩
        intro n' c' e
        rw [hc] at e; cases e
        exact ⟨hi, rfl⟩
      · cases ht
    · next hc =>
      simp at ht; subst ht
      exact ⟨s.programs, rfl, rfl, fun _ => rfl, by simp [hc]⟩
  obtain ⟨q, rfl, q1, q2, q3⟩ := key
  have hp : s' = { s with programs := q } ∧ q[if s.programs.length = 1 then 0 else i]? = some p := by
    simp only [q1] at h
    split at h
    · next h1 =>
      simp only [Option.map_eq_some_iff, Prod.mk.injEq] at h
      obtain ⟨x, hx, rfl, rfl⟩ := h
      first | rw [if_pos h1]; exact ⟨rfl, hx⟩ | rw [if_neg h1]; exact ⟨rfl, hx⟩
    · next h1 =>
      simp only [Option.map_eq_some_iff, Prod.mk.injEq] at h
      obtain ⟨x, hx, rfl, rfl⟩ := h
      first | rw [if_pos h1]; exact ⟨rfl, hx⟩ | rw [if_neg h1]; exact ⟨rfl, hx⟩
  obtain ⟨rfl, hp⟩ := hp
  have hw : ∀ k, St.wanted { s with programs := q } k = s.wanted k := by
    intro k
    simp only [St.wanted]
    split
    · rfl
    · next hc => rw [q2 hc]
  refine ⟨?_, rfl, rfl, rfl, rfl, rfl, rfl, rfl, rfl, q1, ?_, rfl, hw, ?_, ?_⟩
  · refine ⟨I.dev, I.images, I.buffers, I.distinct, I.pos, I.small, I.valid, I.next, I.free, by rw [I.len]; exact q1.symm,
      ?_, I.off, I.on, I.sets, ?_, I.queue, I.nodup, I.only1, I.only2, I.only3, I.only4⟩
    · intro n c hc; simp only; rw [q1]; exact I.clen n c hc
    · intro k h hk h0
      obtain ⟨P, a, b, c⟩ := I.pipes k h hk h0
      exact ⟨P, a, b, by rw [hw]; exact c⟩
  · intro hc; rw [q2 hc]
  · funext j; simp only [St.slot, q1]
  · rw [hw]
    simp only [St.wanted]
    split
    · next n c hc =>
      obtain ⟨h1, h2⟩ := q3 n c hc
      have hl := I.clen n c hc
      rw [h2] at hp
      split at hp
      · next hone =>
        have : i = 0 := by omega
        subst this
        rw [if_pos hone]
        rw [List.getElem?_set_self (by omega)] at hp
        exact hp
      · next hone =>
        rw [if_neg hone]
        rw [List.getElem?_set_self (by omega)] at hp
        exact hp
    · next hc => rw [q2 hc] at hp; exact hp

theorem createPipeline_inv {pass is bs s d} (I : Inv pass is bs s d) (hl : s.layout ≠ 0) {i rp : Nat} {s' : St}
    (h : s.createPipeline i rp = some s') :
    ∃ d' p k, Inv pass is bs s' d' ∧ s.slot i = some k ∧ s'.layout = s.layout ∧
      d'.pipes = upd d.pipes s.next (some ⟨p, rp, s.layout⟩) ∧
      s'.pipelines = s.pipelines.set k s.next ∧ s'.queue = s.queue ∧ s'.renderPass = s.renderPass ∧
      s'.vertexBuffer = s.vertexBuffer ∧ s'.slot = s.slot ∧ s'.sets = s.sets ∧ s'.creator = s.creator ∧
      (∀ k, s'.wanted k = s.wanted k) ∧ s'.programs.length = s.programs.length ∧
      (s.creator = none → s'.programs = s.programs) := by
  simp only [St.createPipeline, Option.bind_eq_bind, Option.bind_eq_some_iff, Prod.exists] at h
  obtain ⟨p, t, hg, k, hk, h⟩ := h
  obtain ⟨J, e1, e2, e3, e4, e5, e6, e7, e8, e9, e10, e11, e12, e13, e14⟩ := getProgram_ok I hg
  simp only [Option.pure_def, Option.some.injEq] at h
  subst h
  rw [e13] at hk
  obtain ⟨k1, k2⟩ := slot_lt hk
  have hp := I.next
  have hf := I.free s.next (by omega)
  have hfresh : s.next ∉ s.pipelines := by
    intro hm
    have := mem_pipes I hm (by omega)
    exact this hf.2.2.2.2
  have hfq : s.next ∉ s.queue := fun hm => I.queue _ hm hf.2.2.2.2
  refine ⟨{ d with pipes := upd d.pipes s.next (some ⟨p, rp, s.layout⟩) }, p, k, ?_, hk, e3, rfl, by simp [e1, e4], e2, e6, e7,
    ?_, e8, e11, ?_, e9, ?_⟩
  · refine ⟨?_, J.images, J.buffers, J.distinct, J.pos, J.small, ?_, by simp, ?_, ?_, J.clen, ?_, ?_, ?_, ?_, ?_, ?_,
      J.only1, J.only2, J.only3, J.only4⟩
    · rw [after_append, ← J.dev, e4, e3]; rfl
    · rw [traceValid_append, ← J.dev, e4, e3]
      refine ⟨J.valid, ⟨by omega, hf.2.2.2.2, ?_⟩, trivial⟩
      obtain ⟨-, -, -, -, h5, -⟩ := I.on hl
      rw [h5]; simp
    · intro h hh
      simp only [e4] at hh
      obtain ⟨a, b, c, f, g⟩ := I.free h (by omega)
      refine ⟨a, b, c, f, ?_⟩
      simp only [upd]
      rw [if_neg (by omega)]; exact g
    · simp only [List.length_set]; exact J.len
    · intro h0; exact absurd h0 (by rw [e3]; exact hl)
    · exact J.on
    · exact J.sets
    · intro k' h hh h0
      simp only [e1, e4, List.getElem?_set] at hh
      simp only [upd, e3]
      split at hh
      · next hkk =>
        subst hkk
        simp only [k1, ite_true, Option.some.injEq] at hh
        subst hh
        refine ⟨_, if_pos rfl, rfl, ?_⟩
        show t.wanted k = _
        rw [k2]; exact e14
      · next hkk =>
        obtain ⟨P, a, b, c⟩ := I.pipes k' h hh h0
        refine ⟨P, ?_, b, ?_⟩
        · rw [if_neg]
          · exact a
          · intro e; subst e; exact hfresh (List.mem_of_getElem? hh)
        · exact (e12 k').trans c
    · intro h hh
      simp only [e2] at hh
      simp only [upd]
      rw [if_neg]
      · exact I.queue h hh
      · intro e; subst e; exact hfq hh
    · simp only [e1, e2, e4]
      have hq := List.nodup_append.mp I.nodup
      rw [List.nodup_append]
      have hmem : ∀ x ∈ (s.pipelines.set k s.next).filter (· ≠ 0), x = s.next ∨ x ∈ s.pipelines.filter (· ≠ 0) := by
        intro x hx
        rw [List.mem_filter] at hx
        rcases List.mem_or_eq_of_mem_set hx.1 with h | h
        · exact Or.inr (List.mem_filter.mpr ⟨h, hx.2⟩)
        · exact Or.inl h
      refine ⟨?_, hq.2.1, ?_⟩
      · have : s.pipelines.set k s.next = s.pipelines.take k ++ s.next :: s.pipelines.drop (k + 1) := by
          rw [List.set_eq_take_append_cons_drop, if_pos k1]
        rw [this, List.filter_append, List.filter_cons]
        have hd : s.pipelines = s.pipelines.take k ++ s.pipelines.drop k := (List.take_append_drop ..).symm
        have hd2 : (s.pipelines.drop (k + 1)).Sublist (s.pipelines.drop k) := by
          rw [← List.drop_drop]; exact List.drop_sublist ..
        have hsub : (s.pipelines.take k ++ s.pipelines.drop (k + 1)).Sublist s.pipelines := by
          conv => rhs; rw [hd]
          exact List.Sublist.append (List.Sublist.refl _) hd2
        have hn1 := hq.1.sublist (hsub.filter (· ≠ 0))
        rw [List.filter_append] at hn1
        rw [if_pos (by simp; omega)]
        rw [List.nodup_append] at hn1 ⊢
        refine ⟨hn1.1, ?_, ?_⟩
        · rw [List.nodup_cons]
          refine ⟨?_, hn1.2.1⟩
          intro hm
          exact hfresh (hsub.subset (by simp [(List.mem_filter.mp hm).1]))
        · intro a ha b hb e
          subst e
          rcases List.mem_cons.mp hb with h | h
          · subst h
            exact hfresh (hsub.subset (by simp [(List.mem_filter.mp ha).1]))
          · exact hn1.2.2 a ha a h rfl
      · intro a ha b hb e
        subst e
        rcases hmem a ha with h | h
        · subst h; exact hfq hb
        · exact hq.2.2 a h a hb rfl
  · simp only [e1] at e13 ⊢
    funext j
    have := congrFun e13 j
    simp only [St.slot, List.length_set, e1] at this ⊢
    exact this
  · intro k'; exact e12 k'
  · intro hc; rw [e10 hc]

/-- What the operations on pipelines leave alone. -/
structure Keep (s s' : St) : Prop where
  layout : s'.layout = s.layout
  slot : s'.slot = s.slot
  sets : s'.sets.length = s.sets.length
  creator : s'.creator = s.creator
  len : s'.programs.length = s.programs.length
  vb : s'.vertexBuffer = s.vertexBuffer

/-- No pipeline lives that the pass forgot. -/
def NoLeak (s : St) (d : Dev) : Prop := ∀ h, d.pipes h ≠ none → h ≠ 0 ∧ (h ∈ s.pipelines ∨ h ∈ s.queue)

theorem createPipeline_keep {pass is bs s d} (I : Inv pass is bs s d) (hl : s.layout ≠ 0) {i rp : Nat} {s' : St}
    (h : s.createPipeline i rp = some s') :
    ∃ d', Inv pass is bs s' d' ∧ Keep s s' ∧ s'.renderPass = s.renderPass ∧ (s.creator = none → s'.programs = s.programs) ∧
      (∃ j, s.slot i = some j ∧ s'.pipelines[j]? = some s.next) ∧
      (∀ j x : Nat, s.pipelines[j]? = some x → x ≠ 0 → ∃ y, s'.pipelines[j]? = some y ∧ y ≠ 0) ∧
      (NoLeak s d → (∀ j, s.slot i = some j → s.pipelines[j]? = some 0) → NoLeak s' d') := by
  obtain ⟨d', p, k, J, hk, e1, e2, e3, e4, e5, e6, e7, e8, e9, e10, e11, e12⟩ := createPipeline_inv I hl h
  have hp := I.next
  obtain ⟨k1, k2⟩ := slot_lt hk
  refine ⟨d', J, ⟨e1, e7, by rw [e8], e9, e11, e6⟩, e5, e12, ⟨k, hk, ?_⟩, ?_, ?_⟩
  · rw [e3, List.getElem?_set_self k1]
  · intro j x hx h0
    rw [e3, List.getElem?_set]
    split
    · next e => subst e; exact ⟨s.next, by simp [k1], by omega⟩
    · exact ⟨x, hx, h0⟩
  · intro hN h0 x hx
    rw [e2] at hx
    simp only [upd] at hx
    rw [e3, e4]
    split at hx
    · next e =>
      subst e
      refine ⟨by omega, Or.inl ?_⟩
      exact List.mem_of_getElem? (List.getElem?_set_self k1)
    · obtain ⟨a, b⟩ := hN x hx
      refine ⟨a, b.imp_left fun hm => ?_⟩
      obtain ⟨j, hj⟩ := List.getElem?_of_mem hm
      refine List.mem_of_getElem? (i := j) ?_
      rw [List.getElem?_set]
      split
      · next e =>
        subst e
        rw [h0 k hk] at hj
        simp at hj
        exact absurd hj.symm a
      · exact hj

theorem createIfNone_keep {pass is bs s d} (I : Inv pass is bs s d) (hl : s.layout ≠ 0) {i : Nat} {s' : St}
    (h : s.createIfNone i = some s') :
    ∃ d', Inv pass is bs s' d' ∧ Keep s s' ∧ s'.renderPass = s.renderPass ∧ (s.creator = none → s'.programs = s.programs) ∧
      (∃ j x, s.slot i = some j ∧ s'.pipelines[j]? = some x ∧ x ≠ 0) ∧ (NoLeak s d → NoLeak s' d') := by
  simp only [St.createIfNone, Option.bind_eq_bind, Option.bind_eq_some_iff] at h
  obtain ⟨k, hk, x, hx, h⟩ := h
  split at h
  · next h0 =>
    simp only [Option.pure_def, Option.some.injEq] at h
    subst h
    exact ⟨d, I, ⟨rfl, rfl, rfl, rfl, rfl, rfl⟩, rfl, fun _ => rfl, ⟨k, x, hk, hx, h0⟩, fun h => h⟩
  · next h0 =>
    obtain ⟨d', J, K, e1, e2, ⟨j, hj, e3⟩, -, e4⟩ := createPipeline_keep I hl h
    refine ⟨d', J, K, e1, e2, ⟨j, _, hj, e3, by have := I.next; omega⟩, fun hN => e4 hN ?_⟩
    intro j' hj'
    rw [hk] at hj'; cases hj'
    have : x = 0 := by simpa using h0
    rw [hx, this]

theorem reset_index {pass is bs s d} (I : Inv pass is bs s d) (i : Nat) :
    (if s.pipelines.length = 1 then 0 else i) = if s.programs.length = 1 then 0 else i := by rw [I.len]

theorem resetPipeline_keep {pass is bs s d} (I : Inv pass is bs s d) {p i : Nat} {s' : St}
    (h : s.resetPipeline p i = some s') :
    Inv pass is bs s' d ∧ Keep s s' ∧ s'.renderPass = s.renderPass ∧
      s'.programs = (if p ≠ 0 then s.programs.set (if s.programs.length = 1 then 0 else i) p else s.programs) ∧
      s'.pipelines = s.pipelines.set (if s.programs.length = 1 then 0 else i) 0 ∧ (NoLeak s d → NoLeak s' d) := by
  simp only [St.resetPipeline, Option.bind_eq_bind, Option.bind_eq_some_iff, reset_index I] at h
  generalize hk : (if s.programs.length = 1 then 0 else i) = k at h ⊢
  obtain ⟨x, hx, h⟩ := h
  have hkl : k < s.pipelines.length := by
    rw [List.getElem?_eq_some_iff] at hx; exact hx.1
  -- the first half
  generalize ht : (if x ≠ 0 then { s with queue := s.queue ++ [x], pipelines := s.pipelines.set k 0 } else s) = t at h
  have key : Inv pass is bs { t with programs := t.programs } d ∧ Keep s t ∧ t.renderPass = s.renderPass ∧ t.programs = s.programs ∧
      t.pipelines = s.pipelines.set k 0 ∧ (NoLeak s d → NoLeak t d) := by
    split at ht
    · next h0 =>
      subst ht
      have hw : ∀ j, St.wanted { s with queue := s.queue ++ [x], pipelines := s.pipelines.set k 0 } j = s.wanted j := fun _ => rfl
      refine ⟨⟨I.dev, I.images, I.buffers, I.distinct, I.pos, I.small, I.valid, I.next, I.free, by simpa using I.len, I.clen,
        ?_, I.on, I.sets, ?_, ?_, ?_, I.only1, I.only2, I.only3, I.only4⟩, ⟨rfl, ?_, rfl, rfl, rfl, rfl⟩, rfl, rfl, rfl, ?_⟩
      · intro hl
        obtain ⟨a, b, c, e⟩ := I.off hl
        refine ⟨a, b, c, fun y hy => ?_⟩
        rcases List.mem_or_eq_of_mem_set hy with h | h
        · exact e y h
        · exact h
      · intro j y hy hy0
        simp only [List.getElem?_set] at hy
        split at hy
        · next e =>
          subst e
          simp only [hkl, ite_true, Option.some.injEq] at hy
          exact absurd hy.symm hy0
        · exact I.pipes j y hy hy0
      · intro y hy
        rcases List.mem_append.mp hy with h | h
        · exact I.queue y h
        · simp at h; subst h
          exact mem_pipes I (List.mem_of_getElem? hx) h0
      · have hq := List.nodup_append.mp I.nodup
        have hset : s.pipelines.set k 0 = s.pipelines.take k ++ 0 :: s.pipelines.drop (k + 1) := by
          rw [List.set_eq_take_append_cons_drop, if_pos hkl]
        have hsp : s.pipelines = s.pipelines.take k ++ x :: s.pipelines.drop (k + 1) := by
          have := List.getElem?_eq_some_iff.mp hx
          obtain ⟨h1, h2⟩ := this
          rw [← h2, List.getElem_cons_drop, List.take_append_drop]
        have h2 := I.nodup
        rw [hsp, List.filter_append, List.filter_cons, if_pos (by simp [h0])] at h2
        simp only
        rw [hset, List.filter_append, List.filter_cons, if_neg (by simp)]
        refine List.Perm.nodup ?_ h2
        simp only [List.append_assoc, List.cons_append]
        refine List.Perm.append_left _ ?_
        refine List.Perm.trans (List.perm_append_comm (l₁ := [x])) ?_
        simp
      · funext j; simp [St.slot]
      · intro hN y hy
        obtain ⟨a, b⟩ := hN y hy
        refine ⟨a, ?_⟩
        rcases b with b | b
        · obtain ⟨j, hj⟩ := List.getElem?_of_mem b
          by_cases hjk : j = k
          · subst hjk
            rw [hx] at hj; cases hj
            right; simp
          · left
            refine List.mem_of_getElem? (i := j) ?_
            simp only [List.getElem?_set]
            rw [if_neg (by omega)]; exact hj
        · right; simp [b]
    · next h0 =>
      subst ht
      have h0 : x = 0 := by simpa using h0
      subst h0
      refine ⟨I, ⟨rfl, rfl, rfl, rfl, rfl, rfl⟩, rfl, rfl, ?_, fun h => h⟩
      rw [List.getElem?_eq_some_iff] at hx
      obtain ⟨h1, h2⟩ := hx
      conv => rhs; rw [← h2]
      rw [List.set_getElem_self]
  obtain ⟨J, K, a1, a2, a3, a4⟩ := key
  by_cases hp : p = 0
  · subst hp
    simp at h
    subst h
    exact ⟨J, K, a1, by simp [a2], a3, a4⟩
  · simp only [ne_eq, hp, not_false_eq_true, ite_true] at h ⊢
    split at h
    · next hlt =>
      simp only [Option.pure_def, Option.some.injEq] at h
      subst h
      refine ⟨⟨J.dev, J.images, J.buffers, J.distinct, J.pos, J.small, J.valid, J.next, J.free, ?_, ?_, J.off, J.on, J.sets,
        ?_, J.queue, J.nodup, J.only1, J.only2, J.only3, J.only4⟩, ⟨K.layout, ?_, K.sets, K.creator, ?_, K.vb⟩, a1, ?_, a3, a4⟩
      · simp only [List.length_set]; exact J.len
      · intro n c hc; simp only [List.length_set]; exact J.clen n c hc
      · intro j y hy hy0
        obtain ⟨P, b1, b2, b3⟩ := J.pipes j y hy hy0
        refine ⟨P, b1, b2, ?_⟩
        have hj : j ≠ k := by
          intro e; subst e
          simp only [a3] at hy
          rw [List.getElem?_set_self hkl] at hy
          simp at hy; exact hy0 hy.symm
        simp only [St.wanted] at b3 ⊢
        cases hc : t.creator with
        | none =>
          simp only [hc] at b3 ⊢
          rw [List.getElem?_set_ne (by omega)]; exact b3
        | some nc => simpa only [hc] using b3
      · have hs := K.slot
        funext j
        have := congrFun hs j
        simp only [St.slot, List.length_set] at this ⊢
        exact this
      · simp only [List.length_set]; exact K.len
      · simp only; rw [a2]
    · cases h

/-! ### Descriptor sets -/

theorem after_writes (ws : List Write) : ∀ (d : Dev) (h : Nat) (D : DSet), d.sets h = some D →
    after d (ws.map (.write h)) = { d with sets := upd d.sets h (some { D with writes := D.writes ++ ws }) } := by
  induction ws with
  | nil =>
    intro d h D hD
    simp only [after, List.map_nil, List.foldl_nil, List.append_nil]
    have : upd d.sets h (some D) = d.sets := by
      funext i; simp only [upd]; split
      · next e => rw [e, hD]
      · rfl
    show d = { d with sets := upd d.sets h (some D) }
    rw [this]
  | cons w ws ih =>
    intro d h D hD
    have := ih (step d (.write h w)) h { D with writes := D.writes ++ [w] } (by simp [step, hD, upd])
    simp only [after, List.map_cons, List.foldl_cons] at this ⊢
    rw [this]
    simp only [step, hD, List.append_assoc, List.cons_append, List.nil_append]
    congr 1
    funext i; simp only [upd]; split <;> rfl

theorem valid_writes (ws : List Write) : ∀ (d : Dev) (h : Nat) (D : DSet), d.sets h = some D →
    (∀ w ∈ ws, (w.binding, w.type) ∈ D.bindings ∧ Fits w.type w.resource) → TraceValid d (ws.map (.write h)) := by
  induction ws with
  | nil => intro d h D _ _; trivial
  | cons w ws ih =>
    intro d h D hD hw
    refine ⟨⟨D, hD, hw w (by simp)⟩, ih _ h { D with writes := D.writes ++ [w] } (by simp [step, hD, upd]) ?_⟩
    intro x hx; exact hw x (by simp [hx])

theorem used_set {l : List Nat} {i x : Nat} (h : l[i]? = some 0) (hx : x ≠ 0) :
    (l.set i x).countP (· ≠ 0) = l.countP (· ≠ 0) + 1 := by
  induction l generalizing i with
  | nil => simp at h
  | cons y ys ih =>
    cases i with
    | zero =>
      simp at h
      simp [h, List.countP_cons, hx]
    | succ i =>
      simp only [List.set_cons_succ, List.countP_cons]
      rw [ih (by simpa using h)]
      omega

theorem used_lt {l : List Nat} {i : Nat} (h : l[i]? = some 0) : l.countP (· ≠ 0) < l.length := by
  have := used_set h (x := 1) (by simp)
  have h2 := List.countP_le_length (p := fun x : Nat => decide (x ≠ 0)) (l := l.set i 1)
  simp only [List.length_set] at h2
  omega

theorem createSet_keep {pass is bs s d} (I : Inv pass is bs s d) (hl : s.layout ≠ 0) {i : Nat} {s' : St}
    (h : s.createDescriptorSet i = some s') :
    ∃ d', Inv pass is bs s' d' ∧ Keep s s' ∧ s'.renderPass = s.renderPass ∧ s'.programs = s.programs ∧
      s'.pipelines = s.pipelines ∧ d'.pipes = d.pipes ∧ s'.queue = s.queue ∧ (∃ x, s'.sets[i]? = some x ∧ x ≠ 0) := by
  simp only [St.createDescriptorSet, Option.bind_eq_bind, Option.bind_eq_some_iff] at h
  obtain ⟨x, hx, h⟩ := h
  split at h
  · next h0 =>
    simp only [Option.pure_def, Option.some.injEq] at h
    subst h
    exact ⟨d, I, ⟨rfl, rfl, rfl, rfl, rfl, rfl⟩, rfl, rfl, rfl, rfl, rfl, x, hx, h0⟩
  · next h0 =>
    have h0 : x = 0 := by simpa using h0
    subst h0
    simp only [Option.bind_eq_some_iff, Option.pure_def, Option.some.injEq] at h
    obtain ⟨ws, hws, h⟩ := h
    subst h
    rw [I.images, I.buffers] at hws
    obtain ⟨w1, w2⟩ := fillWrites_promised pass i is bs ws hws
    obtain ⟨n1, n2, n3, n4, n5, P, n6, n7, n8⟩ := I.on hl
    have hp := I.next
    have hf := I.free s.next (by omega)
    have hil : i < s.sets.length := (List.getElem?_eq_some_iff.mp hx).1
    have hu : s.used < s.sets.length := used_lt hx
    let d1 := step d (.alloc s.pool s.next s.setLayout)
    have hd1 : d1 = { d with
        pools := upd d.pools s.pool (some ⟨P.sets - 1, fun t => P.room t - countType (promised is bs) t⟩)
        sets := upd d.sets s.next (some ⟨s.pool, promised is bs, []⟩) } := by
      simp only [d1, step, n6, n4, n3]
    have hD : d1.sets s.next = some ⟨s.pool, promised is bs, []⟩ := by rw [hd1]; exact upd_self ..
    have haft := after_writes ws d1 s.next _ hD
    refine ⟨after d1 (ws.map (.write s.next)), ?_, ⟨rfl, rfl, by simp, rfl, rfl, rfl⟩, rfl, rfl, rfl, ?_, rfl,
      s.next, ?_, by omega⟩
    · have hsets : (after d1 (ws.map (.write s.next))).sets = upd d.sets s.next (some ⟨s.pool, promised is bs, ws⟩) := by
        rw [haft, hd1]
        funext j; simp only [upd, List.nil_append]
        split <;> rfl
      have e1 : (after d1 (ws.map (.write s.next))).setLayouts = d.setLayouts := by rw [haft, hd1]
      have e2 : (after d1 (ws.map (.write s.next))).pipeLayouts = d.pipeLayouts := by rw [haft, hd1]
      have e3 : (after d1 (ws.map (.write s.next))).pools =
          upd d.pools s.pool (some ⟨P.sets - 1, fun t => P.room t - countType (promised is bs) t⟩) := by rw [haft, hd1]
      have e4 : (after d1 (ws.map (.write s.next))).pipes = d.pipes := by rw [haft, hd1]
      refine ⟨?_, I.images, I.buffers, I.distinct, by simpa using I.pos, by simpa using I.small, ?_, by simp, ?_, I.len,
        I.clen, ?_, ?_, ?_, ?_, ?_, I.nodup, ?_, ?_, ?_, ?_⟩
      · show _ = after Dev.empty (s.evs ++ ([.alloc s.pool s.next s.setLayout] ++ ws.map (.write s.next)))
        rw [after_append, ← I.dev, after_append]
        rfl
      · rw [traceValid_append, ← I.dev]
        refine ⟨I.valid, ⟨by omega, hf.2.2.2.1, P, _, n6, n4, by omega, ?_⟩, valid_writes _ _ _ _ hD ?_⟩
        · intro t
          rw [n8 t, n3]
          have h1 : 1 ≤ P.sets := by omega
          calc countType (promised is bs) t = 1 * countType (promised is bs) t := (Nat.one_mul _).symm
            _ ≤ _ := Nat.mul_le_mul_right _ h1
        · intro w hw
          refine ⟨?_, descriptors_fit is bs i w (w1 ▸ hw)⟩
          show _ ∈ promised is bs
          rw [← w2]
          exact List.mem_map.mpr ⟨w, hw, rfl⟩
      · intro y hy
        simp only at hy
        obtain ⟨a, b, c, f, g⟩ := I.free y (by omega)
        rw [e1, e2, e3, e4, hsets]
        refine ⟨a, b, ?_, ?_, g⟩
        · simp only [upd]; split
          · next e => rw [e, n6] at c; cases c
          · exact c
        · simp only [upd]; rw [if_neg (by omega)]; exact f
      · intro h0; exact absurd h0 hl
      · intro _
        rw [e1, e2, e3]
        refine ⟨n1, n2, n3, n4, n5, _, upd_self .., ?_, ?_⟩
        · simp only [St.used, List.length_set] at n7 ⊢
          rw [used_set hx (by omega)]
          simp only [St.used] at hu
          omega
        · intro t
          simp only
          rw [n8 t, Nat.sub_mul, Nat.one_mul]
      · intro j y hy hy0
        rw [hsets]
        simp only [List.getElem?_set] at hy
        split at hy
        · next e =>
          subst e
          simp only [hil, ite_true, Option.some.injEq] at hy
          subst hy
          rw [← w1]
          exact ⟨upd_self .., w2⟩
        · obtain ⟨a, b⟩ := I.sets j y hy hy0
          refine ⟨?_, b⟩
          rw [upd_ne]
          · exact a
          · intro e; subst e; rw [hf.2.2.2.1] at a; cases a
      · intro k y hk hy0
        rw [e4]
        exact I.pipes k y hk hy0
      · rw [e4]; exact I.queue
      · rw [e1]; exact I.only1
      · rw [e2]; exact I.only2
      · intro y hy
        rw [e3] at hy
        simp only [upd] at hy
        split at hy
        · next e => exact ⟨e, hl⟩
        · exact I.only3 y hy
      · intro y D hy
        rw [hsets] at hy
        simp only [upd] at hy
        split at hy
        · simp only [Option.some.injEq] at hy; subst hy; exact ⟨rfl, hl⟩
        · exact I.only4 y D hy
    · rw [haft, hd1]
    · simp only [List.getElem?_set]; simp [hil]

/-- Recording binds the pipeline of the slot and the set of the index, both live and complete. -/
theorem recordInto_keep {pass is bs s d} (I : Inv pass is bs s d) (hl : s.layout ≠ 0) {i : Nat} {s' : St}
    (hs : ∀ j, s.slot i = some j → ∃ x, s.pipelines[j]? = some x ∧ x ≠ 0) (h : s.recordInto i = some s') :
    ∃ d', Inv pass is bs s' d' ∧ Keep s s' ∧ s'.renderPass = s.renderPass ∧ s'.programs = s.programs ∧
      s'.pipelines = s.pipelines ∧ (NoLeak s d → NoLeak s' d') ∧
      ∃ h x l j P, s'.evs.getLast? = some (.bind h l x) ∧ s.slot i = some j ∧ d'.pipes h = some P ∧
        s.wanted j = some P.program ∧ d'.sets x = some ⟨s'.pool, promised is bs, descriptors is bs i⟩ := by
  simp only [St.recordInto, Option.bind_eq_bind, Option.bind_eq_some_iff] at h
  obtain ⟨t, ht, k, hk, p, hp, x, hx, h⟩ := h
  obtain ⟨d', J, K, a1, a2, a3, a4, a5, y, hy, hy0⟩ := createSet_keep I hl ht
  rw [hy] at hx; cases hx
  rw [K.slot] at hk
  obtain ⟨p', hp', hp0⟩ := hs k hk
  rw [a3, hp'] at hp; cases hp
  simp only [St.emit, Option.pure_def, Option.some.injEq] at h
  subst h
  have htl : t.layout ≠ 0 := by rw [K.layout]; exact hl
  obtain ⟨n1, n2, n3, n4, n5, -⟩ := J.on htl
  obtain ⟨P, b1, b2, b3⟩ := J.pipes k p (by rw [a3]; exact hp') hp0
  obtain ⟨c1, c2⟩ := J.sets i x hy hy0
  have hw : s.wanted k = t.wanted k := by simp only [St.wanted, K.creator, a2]
  refine ⟨d', ?_, ⟨K.layout, K.slot, K.sets, K.creator, K.len, K.vb⟩, a1, a2, a3, ?_, p, x, t.layout, k, P, by simp, hk, b1,
    by rw [hw]; exact b3, c1⟩
  · refine ⟨?_, J.images, J.buffers, J.distinct, J.pos, J.small, ?_, J.next, J.free, J.len, J.clen, J.off, J.on, J.sets,
      J.pipes, J.queue, J.nodup, J.only1, J.only2, J.only3, J.only4⟩
    · rw [after_append, ← J.dev]; rfl
    · rw [traceValid_append, ← J.dev]
      refine ⟨J.valid, ⟨P, t.setLayout, t.bindings, ⟨t.pool, promised is bs, descriptors is bs i⟩, b1, b2, n5, n4, c1, n3.symm, ?_⟩, trivial⟩
      rw [n3]
      intro b hb
      rw [← c2] at hb
      exact written_once _ (by rw [c2]; exact J.distinct) b hb
  · intro hN z hz
    rw [a4] at hz
    simp only
    rw [a3, a5]
    exact hN z hz

/-! ### Whole programs -/

/-- What is known of a pass after its index was recorded for the indices `prepared`. -/
structure Ready (k : Kind) (prepared : List Nat) (s : St) : Prop where
  on : prepared ≠ [] → s.layout ≠ 0
  rp : s.renderPass ≠ 0 → s.layout ≠ 0
  vb : s.vertexBuffer = true → s.layout ≠ 0
  slots : k = .compute → ∀ i ∈ prepared, ∀ j, s.slot i = some j → ∃ x, s.pipelines[j]? = some x ∧ x ≠ 0

theorem initialise_keep (s : St) : s.initialise.slot = s.slot ∧ s.initialise.sets = s.sets ∧ s.initialise.creator = s.creator ∧
    s.initialise.programs = s.programs ∧ s.initialise.vertexBuffer = s.vertexBuffer ∧ s.initialise.renderPass = s.renderPass ∧
    s.initialise.pipelines = s.pipelines ∧ s.initialise.queue = s.queue := by
  simp only [St.initialise]
  split <;> exact ⟨rfl, rfl, rfl, rfl, rfl, rfl, rfl, rfl⟩

theorem inv_next {pass is bs s d} (I : Inv pass is bs s d) (m : Nat) (h : s.next ≤ m) :
    Inv pass is bs { s with next := m } d :=
  ⟨I.dev, I.images, I.buffers, I.distinct, I.pos, I.small, I.valid, by have := I.next; simp only; omega,
    fun x hx => I.free x (by simp only at hx; omega), I.len, I.clen, I.off, I.on, I.sets, I.pipes, I.queue, I.nodup, I.only1,
    I.only2, I.only3, I.only4⟩

theorem inv_irrelevant {pass is bs s d} (I : Inv pass is bs s d) (v : Bool) (r : Nat) :
    Inv pass is bs { s with vertexBuffer := v, renderPass := r } d :=
  ⟨I.dev, I.images, I.buffers, I.distinct, I.pos, I.small, I.valid, I.next, I.free, I.len, I.clen, I.off, I.on, I.sets, I.pipes,
    I.queue, I.nodup, I.only1, I.only2, I.only3, I.only4⟩

theorem resetRenderPass_keep {pass is bs s d} (I : Inv pass is bs s d) (hl : s.layout ≠ 0) {i rp : Nat} {s' : St}
    (h : s.resetRenderPass rp i = some s') :
    ∃ d', Inv pass is bs s' d' ∧ s'.layout ≠ 0 ∧ s'.slot = s.slot ∧ s'.sets.length = s.sets.length ∧ s'.creator = s.creator ∧
      s'.programs.length = s.programs.length ∧ (s.creator = none → s'.programs = s.programs) ∧ (NoLeak s d → NoLeak s' d') := by
  simp only [St.resetRenderPass, Option.bind_eq_bind, Option.bind_eq_some_iff] at h
  obtain ⟨t, ht, h⟩ := h
  obtain ⟨J, K, a1, a2, a3, a4⟩ := resetPipeline_keep I ht
  obtain ⟨d', L, M, b1, b2, -, b3⟩ := createIfNone_keep (inv_irrelevant J t.vertexBuffer rp)
    (by simp only; rw [K.layout]; exact hl) h
  refine ⟨d', L, by rw [M.layout]; simp only; rw [K.layout]; exact hl, M.slot.trans K.slot, M.sets.trans K.sets,
    M.creator.trans K.creator, M.len.trans K.len, ?_, fun hN => b3 (a4 hN)⟩
  intro hc
  rw [b2 (by simp only; rw [K.creator]; exact hc)]
  simp only [a2]; simp

theorem cleanup_keep (s : St) : s.cleanup.slot = s.slot ∧ s.cleanup.sets.length = s.sets.length ∧
    s.cleanup.creator = s.creator ∧ s.cleanup.programs = s.programs ∧ s.cleanup.vertexBuffer = s.vertexBuffer ∧
    s.cleanup.renderPass = s.renderPass ∧ s.cleanup.queue = s.queue := by
  refine ⟨?_, by simp [St.cleanup], rfl, rfl, rfl, rfl, rfl⟩
  funext i; simp [St.slot, St.cleanup]

theorem noLeak_initialise {pass is bs s d} (I : Inv pass is bs s d) : ∃ d', Inv pass is bs s.initialise d' ∧
    (NoLeak s d → NoLeak s.initialise d') := by
  obtain ⟨d', J, e⟩ := initialise_inv I
  obtain ⟨-, -, -, -, -, -, h1, h2⟩ := initialise_keep s
  exact ⟨d', J, fun hN x hx => by rw [h1, h2]; rw [e] at hx; exact hN x hx⟩

theorem noLeak_cleanup {pass is bs s d} (I : Inv pass is bs s d) : ∃ d', Inv pass is bs s.cleanup d' ∧
    (NoLeak s d → NoLeak s.cleanup d') := by
  obtain ⟨d', J, e⟩ := cleanup_inv I
  refine ⟨d', J, fun hN x hx => ?_⟩
  rw [e] at hx
  simp only [Dev.without] at hx
  split at hx
  · exact absurd rfl hx
  · next hm =>
    obtain ⟨a, b⟩ := hN x hx
    refine ⟨a, Or.inr ?_⟩
    rcases b with b | b
    · exact absurd (List.mem_filter.mpr ⟨b, by simp [a]⟩) hm
    · exact b

/-- Preparing the objects of an index. For a compute pass the slot should be empty, or its pipeline is forgotten. -/
theorem prepare_keep {pass is bs s d} (I : Inv pass is bs s d) {k : Kind} {prepared : List Nat} (R : Ready k prepared s)
    {i : Nat} {s' : St} (h : s.prepare k i = some s') :
    ∃ d', Inv pass is bs s' d' ∧ s'.layout ≠ 0 ∧ s'.slot = s.slot ∧ s'.sets.length = s.sets.length ∧ s'.creator = s.creator ∧
      s'.programs.length = s.programs.length ∧ (s.creator = none → s'.programs = s.programs) ∧
      (k = .compute → (∃ j x, s.slot i = some j ∧ s'.pipelines[j]? = some x ∧ x ≠ 0) ∧
        ∀ j x : Nat, s.pipelines[j]? = some x → x ≠ 0 → ∃ y, s'.pipelines[j]? = some y ∧ y ≠ 0) ∧
      (NoLeak s d → (k = .compute → ∀ j, s.slot i = some j → s.pipelines[j]? = some 0) → NoLeak s' d') := by
  cases k with
  | compute =>
    simp only [St.prepare] at h
    obtain ⟨d1, J, hN1⟩ := noLeak_initialise I
    obtain ⟨i1, i2, i3, i4, i5, i6, i7, i8⟩ := initialise_keep s
    obtain ⟨d', L, K, a1, a2, ⟨j, hj, hjx⟩, a3, a4⟩ := createPipeline_keep J (initialise_on s) h
    refine ⟨d', L, by rw [K.layout]; exact initialise_on s, by rw [K.slot, i1], by rw [K.sets, i2], by rw [K.creator, i3],
      by rw [K.len, i4], fun hc => by rw [a2 (by rw [i3]; exact hc), i4], fun _ => ⟨?_, ?_⟩, ?_⟩
    · rw [i1] at hj
      exact ⟨j, _, hj, hjx, by have := J.next; omega⟩
    · intro j x hx h0
      exact a3 j x (by rw [i7]; exact hx) h0
    · intro hN h0
      refine a4 (hN1 hN) fun j hj => ?_
      rw [i1] at hj; rw [i7]; exact h0 rfl j hj
  | quad =>
    simp only [St.prepare] at h
    have I0 := inv_next I (s.next + 1) (by omega)
    split at h
    · next hv =>
      obtain ⟨d1, J, hN1⟩ := noLeak_initialise I0
      obtain ⟨i1, i2, i3, i4, i5, i6, i7, i8⟩ := initialise_keep { s with next := s.next + 1 }
      obtain ⟨d', L, K, a1, a2, -, a3⟩ := createIfNone_keep (inv_irrelevant J true s.next) (initialise_on _) h
      refine ⟨d', L, by rw [K.layout]; exact initialise_on _, ?_, by rw [K.sets]; simp only; rw [i2], ?_, ?_, ?_,
        fun h => by simp at h, fun hN _ => a3 (hN1 hN)⟩
      · rw [K.slot]; exact i1
      · rw [K.creator]; exact i3
      · rw [K.len]; simp only; rw [i4]
      · intro hc
        rw [a2 (by simp only; rw [i3]; exact hc)]
        exact i4
    · next hv =>
      have hl : s.layout ≠ 0 := R.vb (by simpa using hv)
      rw [Option.bind_eq_some_iff] at h
      obtain ⟨t, ht, h⟩ := h
      have key : ∃ d1, Inv pass is bs t d1 ∧ t.layout ≠ 0 ∧ t.slot = s.slot ∧ t.sets.length = s.sets.length ∧
          t.creator = s.creator ∧ t.programs.length = s.programs.length ∧ (s.creator = none → t.programs = s.programs) ∧
          (NoLeak s d → NoLeak t d1) := by
        split at ht
        · obtain ⟨d1, J⟩ := resetRenderPass_keep I0 hl ht
          exact ⟨d1, J⟩
        · simp only [Option.some.injEq] at ht
          subst ht
          exact ⟨d, I0, hl, rfl, rfl, rfl, rfl, fun _ => rfl, fun h => h⟩
      obtain ⟨d1, J, b1, b2, b3, b4, b5, b6, b7⟩ := key
      obtain ⟨d', L, K, a1, a2, -, a3⟩ := createIfNone_keep J b1 h
      exact ⟨d', L, by rw [K.layout]; exact b1, by rw [K.slot, b2], by rw [K.sets, b3], by rw [K.creator, b4],
        by rw [K.len, b5], fun hc => by rw [a2 (by rw [b4]; exact hc), b6 hc], fun h => by simp at h, fun hN _ => a3 (b7 hN)⟩
  | mesh =>
    simp only [St.prepare] at h
    have I0 := inv_next I (s.next + 1) (by omega)
    obtain ⟨d1, J1, hN1⟩ := noLeak_cleanup I0
    obtain ⟨c1, c2, c3, c4, c5, c6, c7⟩ := cleanup_keep { s with next := s.next + 1 }
    obtain ⟨d2, J2, hN2⟩ := noLeak_initialise J1
    obtain ⟨i1, i2, i3, i4, i5, i6, i7, i8⟩ := initialise_keep (St.cleanup { s with next := s.next + 1 })
    have hon := initialise_on (St.cleanup { s with next := s.next + 1 })
    generalize (St.cleanup { s with next := s.next + 1 }).initialise = u at h J2 hN2 i1 i2 i3 i4 i5 i6 i7 i8 hon
    have e1 : u.slot = s.slot := i1.trans c1
    have e2 : u.sets.length = s.sets.length := by rw [i2]; exact c2
    have e3 : u.creator = s.creator := i3.trans c3
    have e4 : u.programs = s.programs := i4.trans c4
    split at h
    · next hv =>
      obtain ⟨d', L, K, a1, a2, -, a3⟩ := createIfNone_keep (inv_irrelevant J2 u.vertexBuffer s.next) hon h
      refine ⟨d', L, by rw [K.layout]; exact hon, ?_, by rw [K.sets]; exact e2, ?_, ?_, ?_,
        fun h => by simp at h, fun hN _ => a3 (hN2 (hN1 hN))⟩
      · rw [K.slot]; exact e1
      · rw [K.creator]; exact e3
      · rw [K.len]; simp only; rw [e4]
      · intro hc
        rw [a2 (by simp only; rw [e3]; exact hc)]
        exact e4
    · next hv =>
      rw [Option.bind_eq_some_iff] at h
      obtain ⟨t, ht, h⟩ := h
      have key : ∃ d1, Inv pass is bs t d1 ∧ t.layout ≠ 0 ∧ t.slot = s.slot ∧ t.sets.length = s.sets.length ∧
          t.creator = s.creator ∧ t.programs.length = s.programs.length ∧ (s.creator = none → t.programs = s.programs) ∧
          (NoLeak s d → NoLeak t d1) := by
        split at ht
        · obtain ⟨d1, J, b1, b2, b3, b4, b5, b6, b7⟩ := resetRenderPass_keep J2 hon ht
          exact ⟨d1, J, b1, by rw [b2, e1], by rw [b3, e2], by rw [b4, e3], by rw [b5, e4],
            fun hc => by rw [b6 (by rw [e3]; exact hc), e4], fun hN => b7 (hN2 (hN1 hN))⟩
        · simp only [Option.some.injEq] at ht
          subst ht
          exact ⟨d2, J2, hon, e1, e2, e3, by rw [e4], fun _ => e4, fun hN => hN2 (hN1 hN)⟩
      obtain ⟨d1, J, b1, b2, b3, b4, b5, b6, b7⟩ := key
      obtain ⟨d', L, K, a1, a2, -, a3⟩ := createIfNone_keep J b1 h
      exact ⟨d', L, by rw [K.layout]; exact b1, by rw [K.slot, b2], by rw [K.sets, b3], by rw [K.creator, b4],
        by rw [K.len, b5], fun hc => by rw [a2 (by rw [b4]; exact hc), b6 hc], fun h => by simp at h, fun hN _ => a3 (b7 hN)⟩

/-- Recording a pass for an index. -/
theorem record_step {pass is bs s d} (I : Inv pass is bs s d) {k : Kind} {prepared : List Nat} (R : Ready k prepared s)
    {i : Nat} {fresh : Bool}
    (hL : if k = .compute then fresh = true ↔ i ∉ prepared else i ∉ prepared → fresh = true) {s' : St}
    (h : exec k s (.record i fresh) = some s') :
    ∃ d', Inv pass is bs s' d' ∧ Ready k (i :: prepared) s' ∧ s'.slot = s.slot ∧ s'.sets.length = s.sets.length ∧
      s'.creator = s.creator ∧ s'.programs.length = s.programs.length ∧ (s.creator = none → s'.programs = s.programs) ∧
      (NoLeak s d → (k = .compute → fresh = true → ∀ j, s.slot i = some j → s.pipelines[j]? = some 0) → NoLeak s' d') ∧
      ∃ h x l j P, s'.evs.getLast? = some (.bind h l x) ∧ s.slot i = some j ∧ d'.pipes h = some P ∧
        s'.wanted j = some P.program ∧ d'.sets x = some ⟨s'.pool, promised is bs, descriptors is bs i⟩ := by
  simp only [exec, Option.bind_eq_some_iff] at h
  obtain ⟨t, ht, u, hu, h⟩ := h
  -- preparation
  have key1 : ∃ d1, Inv pass is bs t d1 ∧ t.layout ≠ 0 ∧ t.slot = s.slot ∧ t.sets.length = s.sets.length ∧
      t.creator = s.creator ∧ t.programs.length = s.programs.length ∧ (s.creator = none → t.programs = s.programs) ∧
      (k = .compute → ∀ i' ∈ i :: prepared, ∀ j, s.slot i' = some j → ∃ x, t.pipelines[j]? = some x ∧ x ≠ 0) ∧
      (NoLeak s d → (k = .compute → fresh = true → ∀ j, s.slot i = some j → s.pipelines[j]? = some 0) → NoLeak t d1) := by
    cases hf : fresh with
    | true =>
      rw [hf] at ht
      simp only [ite_true] at ht
      obtain ⟨d1, J, b1, b2, b3, b4, b5, b6, b7, b8⟩ := prepare_keep I R ht
      refine ⟨d1, J, b1, b2, b3, b4, b5, b6, ?_, fun hN h0 => b8 hN fun hk => h0 hk rfl⟩
      intro hk i' hi' j hj
      obtain ⟨⟨j', x, e1, e2, e3⟩, c2⟩ := b7 hk
      rcases List.mem_cons.mp hi' with rfl | hi'
      · rw [e1] at hj; cases hj
        exact ⟨x, e2, e3⟩
      · obtain ⟨y, y1, y2⟩ := R.slots hk i' hi' j hj
        exact c2 j y y1 y2
    | false =>
      rw [hf] at ht hL
      simp only [Bool.false_eq_true, ite_false, Option.some.injEq] at ht
      subst ht
      have hm : i ∈ prepared := by
        by_cases hk : k = .compute
        · simpa [hk] using hL
        · simpa [hk] using hL
      refine ⟨d, I, R.on (by intro e; rw [e] at hm; cases hm), rfl, rfl, rfl, rfl, fun _ => rfl, ?_, fun hN _ => hN⟩
      intro hk i' hi' j hj
      rcases List.mem_cons.mp hi' with rfl | hi'
      · exact R.slots hk i' hm j hj
      · exact R.slots hk i' hi' j hj
  obtain ⟨d1, J, b1, b2, b3, b4, b5, b6, b7, b8⟩ := key1
  -- pipeline
  have key2 : ∃ d2, Inv pass is bs u d2 ∧ u.layout ≠ 0 ∧ u.slot = s.slot ∧ u.sets.length = s.sets.length ∧
      u.creator = s.creator ∧ u.programs.length = s.programs.length ∧ (s.creator = none → u.programs = s.programs) ∧
      (∀ j, u.slot i = some j → ∃ x, u.pipelines[j]? = some x ∧ x ≠ 0) ∧
      (k = .compute → ∀ i' ∈ i :: prepared, ∀ j, s.slot i' = some j → ∃ x, u.pipelines[j]? = some x ∧ x ≠ 0) ∧
      (NoLeak s d → (k = .compute → fresh = true → ∀ j, s.slot i = some j → s.pipelines[j]? = some 0) → NoLeak u d2) := by
    by_cases hk : k = .compute
    · rw [if_pos hk] at hu
      simp only [Option.some.injEq] at hu
      subst hu
      exact ⟨d1, J, b1, b2, b3, b4, b5, b6, fun j hj => b7 hk i (by simp) j (by rw [← b2]; exact hj), b7, b8⟩
    · rw [if_neg hk] at hu
      obtain ⟨d2, L, K, a1, a2, ⟨j, x, c1, c2, c3⟩, a3⟩ := createIfNone_keep J b1 hu
      refine ⟨d2, L, by rw [K.layout]; exact b1, by rw [K.slot, b2], by rw [K.sets, b3], by rw [K.creator, b4],
        by rw [K.len, b5], fun hc => by rw [a2 (by rw [b4]; exact hc), b6 hc], ?_, fun h => absurd h hk,
        fun hN h0 => a3 (b8 hN h0)⟩
      intro j' hj'
      rw [K.slot, c1] at hj'; cases hj'
      exact ⟨x, c2, c3⟩
  obtain ⟨d2, L, c1, c2, c3, c4, c5, c6, c7, c8, c9⟩ := key2
  obtain ⟨d', M, K, e1, e2, e3, e4, hh, x, l, j, P, f1, f2, f3, f4, f5⟩ := recordInto_keep L c1 c7 h
  have hw : ∀ j, s'.wanted j = u.wanted j := fun j => by simp only [St.wanted, K.creator, e2]
  have hon : s'.layout ≠ 0 := by rw [K.layout]; exact c1
  refine ⟨d', M, ⟨fun _ => hon, fun _ => hon, fun _ => hon, ?_⟩, by rw [K.slot, c2], by rw [K.sets, c3],
    by rw [K.creator, c4], by rw [K.len, c5], fun hc => by rw [e2, c6 hc], fun hN h0 => e4 (c9 hN h0),
    hh, x, l, j, P, f1, by rw [← c2]; exact f2, f3, by rw [hw]; exact f4, f5⟩
  intro hk i' hi' j hj
  rw [K.slot, c2] at hj
  rw [e3]; exact c8 hk i' hi' j hj

/-- Resetting a pipeline. -/
theorem reset_step {pass is bs s d} (I : Inv pass is bs s d) {k : Kind} {prepared : List Nat} (R : Ready k prepared s)
    {p i : Nat} (hp : prepared ≠ []) {s' : St} (h : exec k s (.reset p i) = some s') :
    ∃ d', Inv pass is bs s' d' ∧ Ready k prepared s' ∧ s'.slot = s.slot ∧ s'.sets.length = s.sets.length ∧
      s'.creator = s.creator ∧ s'.programs.length = s.programs.length ∧
      (s.creator = none → s'.programs =
        if p ≠ 0 then s.programs.set (if s.programs.length = 1 then 0 else i) p else s.programs) ∧
      (NoLeak s d → NoLeak s' d') := by
  simp only [exec, Option.bind_eq_some_iff] at h
  obtain ⟨t, ht, h⟩ := h
  obtain ⟨J, K, a1, a2, a3, a4⟩ := resetPipeline_keep I ht
  have hl : t.layout ≠ 0 := by rw [K.layout]; exact R.on hp
  split at h
  · next hk =>
    obtain ⟨d', L, M, b1, b2, ⟨j, hj, hjx⟩, b3, b4⟩ := createPipeline_keep J hl h
    have hon : s'.layout ≠ 0 := by rw [M.layout]; exact hl
    refine ⟨d', L, ⟨fun _ => hon, fun _ => hon, fun _ => hon, ?_⟩, by rw [M.slot, K.slot], by rw [M.sets, K.sets],
      by rw [M.creator, K.creator], by rw [M.len, K.len], fun hc => by rw [b2 (by rw [K.creator]; exact hc), a2], ?_⟩
    · intro _ i' hi' j' hj'
      rw [M.slot, K.slot] at hj'
      obtain ⟨x, x1, x2⟩ := R.slots hk i' hi' j' hj'
      by_cases he : j' = j
      · subst he
        exact ⟨_, hjx, by have := J.next; omega⟩
      · refine b3 j' x ?_ x2
        rw [a3, List.getElem?_set_ne]
        · exact x1
        · intro e
          apply he
          rw [← e]
          rw [K.slot] at hj
          exact (slot_lt hj).2.symm
    · intro hN
      refine b4 (a4 hN) fun j' hj' => ?_
      obtain ⟨q1, q2⟩ := slot_lt hj'
      rw [K.len] at q2
      rw [a3, ← q2, List.getElem?_set_self]
      rw [a3] at q1; simpa using q1
  · next hk =>
    split at h
    · obtain ⟨d', L, M, b1, b2, -, b4⟩ := createIfNone_keep J hl h
      have hon : s'.layout ≠ 0 := by rw [M.layout]; exact hl
      exact ⟨d', L, ⟨fun _ => hon, fun _ => hon, fun _ => hon, fun e => absurd e hk⟩, by rw [M.slot, K.slot],
        by rw [M.sets, K.sets], by rw [M.creator, K.creator], by rw [M.len, K.len],
        fun hc => by rw [b2 (by rw [K.creator]; exact hc), a2], fun hN => b4 (a4 hN)⟩
    · simp only [Option.some.injEq] at h
      subst h
      exact ⟨d, J, ⟨fun _ => hl, fun _ => hl, fun _ => hl, fun e => absurd e hk⟩, K.slot, K.sets, K.creator, K.len,
        fun _ => a2, a4⟩

theorem run_step {pass is bs s d} (I : Inv pass is bs s d) : ∃ d',
    Inv pass is bs { s with queue := [], evs := s.evs ++ s.queue.map .destroyPipe } d' ∧
    (NoLeak s d → NoLeak { s with queue := [], evs := s.evs ++ s.queue.map .destroyPipe } d') := by
  obtain ⟨d', J, e⟩ := run_inv I
  refine ⟨d', J, fun hN x hx => ?_⟩
  rw [e] at hx
  simp only [Dev.without] at hx
  split at hx
  · exact absurd rfl hx
  · next hm =>
    obtain ⟨a, b⟩ := hN x hx
    exact ⟨a, Or.inl (b.resolve_right hm)⟩

theorem runs_inv {pass is bs} {k : Kind} : ∀ (os : List Op) (s : St) (d : Dev), Inv pass is bs s d → (∀ o ∈ os, o = .run) →
    ∀ s', execAll k s os = some s' → ∃ d', Inv pass is bs s' d' ∧ s'.creator = s.creator ∧ s'.programs = s.programs ∧
      (NoLeak s d → NoLeak s' d') := by
  intro os
  induction os with
  | nil => intro s d I _ s' h; simp [execAll] at h; subst h; exact ⟨d, I, rfl, rfl, fun h => h⟩
  | cons o os ih =>
    intro s d I ho s' h
    have := ho o (by simp)
    subst this
    simp only [execAll, exec, Option.bind_some] at h
    obtain ⟨d1, J, hN⟩ := run_step I
    obtain ⟨d', L, e1, e2, e3⟩ := ih _ d1 J (fun x hx => ho x (by simp [hx])) s' h
    exact ⟨d', L, e1, e2, fun h => e3 (hN h)⟩

/-- The slot of an index. -/
def slotOf (single : Bool) (i : Nat) : Nat := if single then 0 else i

theorem slot_slotOf {pass is bs s d} (I : Inv pass is bs s d) {i j : Nat} (h : s.slot i = some j) :
    j = slotOf (decide (s.programs.length = 1)) i := by
  have := (slot_lt h).2
  rw [this]
  simp only [slotOf]
  by_cases hp : s.programs.length = 1 <;> simp [hp]

theorem touched_record {pass is bs s d} (I : Inv pass is bs s d) {prepared : List Nat} (R : Ready .compute prepared s)
    {i : Nat} {fresh : Bool} (hp : fresh = false → prepared ≠ []) {s' : St} (h : exec .compute s (.record i fresh) = some s') :
    ∀ (j x : Nat), s'.pipelines[j]? = some x → x ≠ 0 →
      j = slotOf (decide (s.programs.length = 1)) i ∨ s.pipelines[j]? = some x := by
  simp only [exec, Option.bind_eq_some_iff, ite_true, Option.some.injEq] at h
  obtain ⟨t, ht, u, rfl, h⟩ := h
  have hs : s'.pipelines = t.pipelines ∧ (∀ (j x : Nat), t.pipelines[j]? = some x → x ≠ 0 →
      j = slotOf (decide (s.programs.length = 1)) i ∨ s.pipelines[j]? = some x) := by
    have hpipe : ∀ {t : St} {d}, Inv pass is bs t d → t.layout ≠ 0 → t.recordInto i = some s' → s'.pipelines = t.pipelines := by
      intro t d J hl h
      simp only [St.recordInto, Option.bind_eq_bind, Option.bind_eq_some_iff, Option.pure_def, Option.some.injEq] at h
      obtain ⟨v, hv, k, -, p, -, x, -, rfl⟩ := h
      obtain ⟨_, _, _, _, _, e, _⟩ := createSet_keep J hl hv
      exact e
    cases fresh with
    | true =>
      simp only [ite_true, St.prepare] at ht
      obtain ⟨d1, J, -⟩ := initialise_inv I
      obtain ⟨i1, i2, i3, i4, i5, i6, i7, i8⟩ := initialise_keep s
      obtain ⟨d', p, k, L, hk, e1, e2, e3, -⟩ := createPipeline_inv J (initialise_on s) ht
      refine ⟨hpipe L (by rw [e1]; exact initialise_on s) h, ?_⟩
      intro j x hx h0
      rw [e3, List.getElem?_set] at hx
      split at hx
      · next e =>
        subst e
        left
        rw [i1] at hk
        exact slot_slotOf I hk
      · right; rw [← i7]; exact hx
    | false =>
      simp only [Bool.false_eq_true, ite_false, Option.some.injEq] at ht
      subst ht
      exact ⟨hpipe I (R.on (hp rfl)) h, fun j x hx _ => Or.inr hx⟩
  intro j x hx h0
  rw [hs.1] at hx
  exact hs.2 j x hx h0

theorem touched_reset {pass is bs s d} (I : Inv pass is bs s d) {p i : Nat} (hl : s.layout ≠ 0)
    {s' : St} (h : exec .compute s (.reset p i) = some s') :
    ∀ (j x : Nat), s'.pipelines[j]? = some x → x ≠ 0 →
      j = slotOf (decide (s.programs.length = 1)) i ∨ s.pipelines[j]? = some x := by
  simp only [exec, Option.bind_eq_some_iff, ite_true] at h
  obtain ⟨t, ht, h⟩ := h
  obtain ⟨J, K, a1, a2, a3, a4⟩ := resetPipeline_keep I ht
  obtain ⟨d', q, k, L, hk, e1, e2, e3, -⟩ := createPipeline_inv J (by rw [K.layout]; exact hl) h
  intro j x hx h0
  rw [e3, List.getElem?_set] at hx
  split at hx
  · next e =>
    subst e
    left
    have := slot_slotOf J hk
    rw [K.len] at this
    exact this
  · have hse : (if s.programs.length = 1 then 0 else i) = slotOf (decide (s.programs.length = 1)) i := by
      simp only [slotOf]
      by_cases hp : s.programs.length = 1 <;> simp [hp]
    rw [hse] at a3
    rw [a3, List.getElem?_set] at hx
    by_cases e : slotOf (decide (s.programs.length = 1)) i = j
    · exact Or.inl e.symm
    · rw [if_neg e] at hx; exact Or.inr hx

/-- The whole story. -/
theorem program_inv {pass is bs} {k : Kind} : ∀ (os : List Op) (s : St) (d : Dev) (prepared touched : List Nat),
    Inv pass is bs s d → Ready k prepared s → Legal k prepared os → ∀ s', execAll k s os = some s' →
    ∃ d', Inv pass is bs s' d' ∧ s'.creator = s.creator ∧ s'.programs.length = s.programs.length ∧
      (s.creator = none → ∀ idx, s'.programs[if s.programs.length = 1 then 0 else idx]? =
        os.foldl (fun cur o =>
          match o with
          | .reset p i => if p ≠ 0 ∧ (s.programs.length = 1 ∨ i = idx) then some p else cur
          | _ => cur) (s.programs[if s.programs.length = 1 then 0 else idx]?)) ∧
      (NoLeak s d → OneEach k (decide (s.programs.length = 1)) touched os →
        (k = .compute → ∀ (j x : Nat), s.pipelines[j]? = some x → x ≠ 0 → j ∈ touched) → NoLeak s' d') := by
  intro os
  induction os with
  | nil =>
    intro s d prepared touched I _ _ s' h
    simp [execAll] at h; subst h
    exact ⟨d, I, rfl, rfl, fun _ _ => rfl, fun h _ _ => h⟩
  | cons o os ih =>
    intro s d prepared touched I R hL s' h
    simp only [execAll, Option.bind_eq_some_iff] at h
    obtain ⟨t, ht, h⟩ := h
    cases o with
    | record i fresh =>
      obtain ⟨hL1, hL2⟩ := hL
      obtain ⟨d1, J, R1, b1, b2, b3, b4, b5, b6, -⟩ := record_step I R hL1 ht
      obtain ⟨d', L, c1, c2, c3, c4⟩ := ih t d1 (i :: prepared) (slotOf (decide (s.programs.length = 1)) i :: touched) J R1 hL2 s' h
      refine ⟨d', L, by rw [c1, b3], by rw [c2, b4], ?_, ?_⟩
      · intro hc idx
        have := c3 (by rw [b3]; exact hc) idx
        rw [b4] at this
        rw [this, b5 hc]
        rfl
      · intro hN hO hT
        rw [b4] at c4
        simp only [OneEach] at hO
        refine c4 (b6 hN ?_) hO.2 ?_
        · intro hk hf j hj
          have h1 := hO.1 hk hf
          have hj' := slot_slotOf I hj
          have hlt := (slot_lt hj).1
          cases hx : s.pipelines[j]? with
          | none => rw [List.getElem?_eq_none_iff] at hx; omega
          | some x =>
            by_cases h0 : x = 0
            · rw [h0]
            · exact absurd (hT hk j x hx h0) (by rw [hj']; exact h1)
        · intro hk j x hx h0
          subst hk
          have hprep : fresh = false → prepared ≠ [] := by
            intro hf e
            subst hf e
            simp at hL1
          rcases touched_record I R hprep ht j x hx h0 with e | e
          · simp [e]
          · exact List.mem_cons_of_mem _ (hT rfl j x e h0)
    | reset p i =>
      obtain ⟨hL1, hL2⟩ := hL
      obtain ⟨d1, J, R1, b1, b2, b3, b4, b5, b6⟩ := reset_step I R hL1 ht
      obtain ⟨d', L, c1, c2, c3, c4⟩ := ih t d1 prepared (slotOf (decide (s.programs.length = 1)) i :: touched) J R1 hL2 s' h
      refine ⟨d', L, by rw [c1, b3], by rw [c2, b4], ?_, ?_⟩
      · intro hc idx
        have := c3 (by rw [b3]; exact hc) idx
        rw [b4] at this
        rw [this, b5 hc]
        simp only [List.foldl_cons]
        congr 1
        by_cases hp : p = 0
        · simp [hp]
        · simp only [ne_eq, hp, not_false_eq_true, ite_true, true_and]
          have hlen : (if s.programs.length = 1 then 0 else i) < s.programs.length := by
            simp only [exec, Option.bind_eq_some_iff] at ht
            obtain ⟨v, hv, -⟩ := ht
            simp only [St.resetPipeline, Option.bind_eq_bind, Option.bind_eq_some_iff, reset_index I] at hv
            obtain ⟨x, hx, -⟩ := hv
            have := (List.getElem?_eq_some_iff.mp hx).1
            rw [I.len] at this
            exact this
          rw [List.getElem?_set]
          by_cases h1 : s.programs.length = 1
          · simp [h1]
          · simp only [h1, ite_false, false_or] at hlen ⊢
            by_cases hi : i = idx
            · subst hi; simp [hlen]
            · simp [hi]
      · intro hN hO hT
        rw [b4] at c4
        refine c4 (b6 hN) hO ?_
        intro hk j x hx h0
        subst hk
        rcases touched_reset I (R.on hL1) ht j x hx h0 with e | e
        · simp [e]
        · exact List.mem_cons_of_mem _ (hT rfl j x e h0)
    | run =>
      simp only [exec, Option.some.injEq] at ht
      subst ht
      obtain ⟨d1, J, hN⟩ := run_step I
      obtain ⟨d', L, c1, c2, c3, c4⟩ := ih _ d1 prepared touched J ⟨R.on, R.rp, R.vb, R.slots⟩ hL s' h
      exact ⟨d', L, c1, c2, c3, fun a b c => c4 (hN a) b c⟩
    | finish =>
      simp only [exec, Option.some.injEq] at ht
      subst ht
      obtain ⟨d1, J, hN⟩ := noLeak_cleanup I
      obtain ⟨q1, q2, q3, q4, -⟩ := cleanup_keep s
      obtain ⟨d', L, e1, e2, e3⟩ := runs_inv os _ d1 J hL s' h
      refine ⟨d', L, by rw [e1, q3], by rw [e2, q4], ?_, fun a _ _ => e3 (hN a)⟩
      intro _ idx
      rw [e2, q4]
      have : ∀ (os : List Op) (c : Option Nat), (∀ o ∈ os, o = Op.run) → os.foldl (fun cur o =>
          match o with
          | .reset p i => if p ≠ 0 ∧ (s.programs.length = 1 ∨ i = idx) then some p else cur
          | _ => cur) c = c := by
        intro os
        induction os with
        | nil => intros; rfl
        | cons o os ih => intro c ho; rw [List.foldl_cons, ho o (by simp)]; exact ih c fun x hx => ho x (by simp [hx])
      simp only [List.foldl_cons]
      exact (this os _ hL).symm


/-- The state before a recording. -/
theorem before_record {pass is bs} {k : Kind} (i : Nat) (f : Bool) : ∀ (os : List Op) (s : St) (d : Dev) (prepared : List Nat),
    Inv pass is bs s d → Ready k prepared s → Legal k prepared (os ++ [.record i f]) → ∀ s', execAll k s os = some s' →
    ∃ d' prepared', Inv pass is bs s' d' ∧ Ready k prepared' s' ∧ Legal k prepared' [.record i f] ∧ Legal k prepared os := by
  intro os
  induction os with
  | nil => intro s d prepared I R hL s' h; simp [execAll] at h; subst h; exact ⟨d, prepared, I, R, hL, trivial⟩
  | cons o os ih =>
    intro s d prepared I R hL s' h
    simp only [execAll, Option.bind_eq_some_iff] at h
    obtain ⟨t, ht, h⟩ := h
    cases o with
    | record j fresh =>
      obtain ⟨hL1, hL2⟩ := hL
      obtain ⟨d1, J, R1, -⟩ := record_step I R hL1 ht
      obtain ⟨d', p', a, b, c, e⟩ := ih t d1 _ J R1 hL2 s' h
      exact ⟨d', p', a, b, c, hL1, e⟩
    | reset p j =>
      obtain ⟨hL1, hL2⟩ := hL
      obtain ⟨d1, J, R1, -⟩ := reset_step I R hL1 ht
      obtain ⟨d', p', a, b, c, e⟩ := ih t d1 _ J R1 hL2 s' h
      exact ⟨d', p', a, b, c, hL1, e⟩
    | run =>
      simp only [exec, Option.some.injEq] at ht
      subst ht
      obtain ⟨d1, J, -⟩ := run_step I
      exact ih _ d1 prepared J ⟨R.on, R.rp, R.vb, R.slots⟩ hL s' h
    | finish =>
      have := hL (.record i f) (by simp)
      cases this

theorem execAll_append (k : Kind) (a b : List Op) : ∀ s, execAll k s (a ++ b) = (execAll k s a).bind fun s => execAll k s b := by
  induction a with
  | nil => intro s; simp [execAll]
  | cons o a ih =>
    intro s
    simp only [List.cons_append, execAll]
    cases exec k s o with
    | none => rfl
    | some t => simpa using ih t

theorem new_ready (k : Kind) (images buffers : List Attachment) (programs : List Nat)
    (creator : Option (Nat × (Nat → Nat))) (n : Nat) : Ready k [] (St.new images buffers programs creator n) :=
  ⟨by simp, by simp [St.new], by simp [St.new], by simp⟩

/-! ### The properties -/

/-- C35. Every Vulkan call a pass makes for its descriptors and pipelines, during any use of it, is valid: no object is
used, or destroyed, unless it exists at that moment, no handle is destroyed twice, every allocation finds room in the
pool, every write designates a binding of the set, and whatever is bound is complete. -/
theorem objects_valid (k : Kind) (pass : Nat) (is : List AddImage) (bs : List AddBuffer) (programs : List Nat)
    (creator : Option (Nat × (Nat → Nat))) (n : Nat) (hd : ((promised is bs).map (·.1)).Nodup) (hn : 0 < n)
    (hs : (promised is bs).length * n < 2 ^ 32) (ops : List Op) (hL : Legal k [] ops) (s : St)
    (h : execAll k (St.new (is.map (·.attach pass)) (bs.map (·.attach pass)) programs creator n) ops = some s) :
    TraceValid Dev.empty s.evs := by
  obtain ⟨d, I, -⟩ := program_inv ops _ _ [] [] (new_inv pass is bs programs creator n hd hn hs)
    (new_ready k _ _ _ _ _) hL s h
  exact I.valid

/-- C54, C56. When a pass has been recorded for an index, the last call binds a set whose content is what the `add…`
calls of the pass promised for that index, each binding written exactly once, and a live pipeline made with the bound
layout and with the program configured last for that index, or the program the creator makes for it. -/
theorem bound_as_configured (k : Kind) (pass : Nat) (is : List AddImage) (bs : List AddBuffer) (programs : List Nat)
    (creator : Option (Nat × (Nat → Nat))) (n : Nat) (hd : ((promised is bs).map (·.1)).Nodup) (hn : 0 < n)
    (hs : (promised is bs).length * n < 2 ^ 32) (ops : List Op) (i : Nat) (fresh : Bool)
    (hL : Legal k [] (ops ++ [.record i fresh])) (s : St)
    (h : execAll k (St.new (is.map (·.attach pass)) (bs.map (·.attach pass)) programs creator n)
      (ops ++ [.record i fresh]) = some s) :
    ∃ pipe layout set D P, s.evs.getLast? = some (.bind pipe layout set) ∧
      (after Dev.empty s.evs).sets set = some D ∧ D.bindings = promised is bs ∧ D.writes = descriptors is bs i ∧
      (∀ b ∈ promised is bs, (D.writes.filter fun w => w.binding = b.1).map (fun w => (w.binding, w.type)) = [b]) ∧
      (after Dev.empty s.evs).pipes pipe = some P ∧ P.layout = layout ∧
      (creator = none → programAfter programs ops i = some P.program) ∧
      (∀ m c, creator = some (m, c) → P.program = if m = 1 then c 0 else c i) := by
  rw [execAll_append] at h
  simp only [Option.bind_eq_some_iff, execAll] at h
  obtain ⟨t, ht, u, hu, h⟩ := h
  simp only [Option.some.injEq] at h
  subst h
  have I0 := new_inv pass is bs programs creator n hd hn hs
  obtain ⟨d, prep, I, R, hL', hLp⟩ := before_record i fresh ops _ _ [] I0 (new_ready k _ _ _ _ _) hL t ht
  obtain ⟨d2, I2, c1, c2, c3, -⟩ := program_inv ops _ _ [] [] I0 (new_ready k _ _ _ _ _) hLp t ht
  obtain ⟨d', J, R', b1, b2, b3, b4, b5, -, p, x, l, j, P, e1, e2, e3, e4, e5⟩ := record_step I R hL'.1 hu
  have hv := J.valid
  have hd' := J.dev
  obtain ⟨pre, hpre⟩ : ∃ pre, u.evs = pre ++ [.bind p l x] := by
    rw [List.getLast?_eq_some_iff] at e1
    exact e1
  rw [hpre, traceValid_append] at hv
  rw [hpre, after_append] at hd'
  obtain ⟨P', sl, bd, D, v1, v2, v3, v4, v5, v6, v7⟩ := hv.2.1
  have hd' : d' = after Dev.empty pre := hd'
  rw [← hd'] at v1 v3 v4 v5
  rw [e3] at v1; cases v1
  rw [e5] at v5; cases v5
  simp only at v6 v7
  have hj := (slot_lt e2).2
  refine ⟨p, l, x, _, P, e1, by rw [← J.dev]; exact e5, rfl, rfl, by rw [v6]; exact v7, by rw [← J.dev]; exact e3, v2, ?_, ?_⟩
  · intro hc
    subst hc
    have := c3 rfl i
    simp only [St.new] at this c2
    rw [programAfter]
    have hw : u.wanted j = t.programs[j]? := by
      simp only [St.wanted, b3, c1, St.new]
      rw [b5 (by rw [c1]; rfl)]
    rw [hw, hj, c2] at e4
    rw [← this.symm.trans e4]
    congr 1
    by_cases hp : programs.length = 1 <;> simp [hp]
  · intro m c hc
    subst hc
    have hlen := I.clen m c (by rw [c1]; rfl)
    simp only [St.wanted, b3, c1, St.new, Option.some.injEq] at e4
    rw [← e4, hj, hlen]
    by_cases hm : m = 1 <;> simp [hm]

/-- C55. Once the pass is destroyed and the graph has run once more, none of the objects it created is left, and each was
destroyed exactly once (a second destruction would not be valid). For a compute pass this needs each of its pipeline
slots to be prepared once. -/
theorem nothing_left_partial (k : Kind) (pass : Nat) (is : List AddImage) (bs : List AddBuffer) (programs : List Nat)
    (creator : Option (Nat × (Nat → Nat))) (n : Nat) (hd : ((promised is bs).map (·.1)).Nodup) (hn : 0 < n)
    (hs : (promised is bs).length * n < 2 ^ 32) (ops : List Op) (hL : Legal k [] (ops ++ [.finish, .run]))
    (hO : OneEach k (decide ((creator.elim programs.length (·.1)) = 1)) [] ops) (s : St)
    (h : execAll k (St.new (is.map (·.attach pass)) (bs.map (·.attach pass)) programs creator n)
      (ops ++ [.finish, .run]) = some s) :
    TraceValid Dev.empty s.evs ∧ after Dev.empty s.evs = Dev.empty := by
  have I0 := new_inv pass is bs programs creator n hd hn hs
  have hlen : (St.new (is.map (·.attach pass)) (bs.map (·.attach pass)) programs creator n).programs.length =
      creator.elim programs.length (·.1) := by
    cases creator with
    | none => rfl
    | some c => obtain ⟨m, c⟩ := c; exact I0.clen m c rfl
  obtain ⟨d, I, e1, e2, -, e3⟩ := program_inv (ops ++ [.finish, .run]) _ _ [] [] I0 (new_ready k _ _ _ _ _) hL s h
  have hN : NoLeak s d := by
    refine e3 (fun x hx => absurd rfl hx) ?_ ?_
    · rw [hlen]
      have : ∀ (a : List Op) (T : List Nat) (b : Bool), OneEach k b T a → OneEach k b T (a ++ [.finish, .run]) := by
        intro a
        induction a with
        | nil => intro T b _; trivial
        | cons o a ih =>
          intro T b h
          cases o with
          | record i f => exact ⟨h.1, ih _ _ h.2⟩
          | reset p i => exact ih _ _ h
          | run => exact ih _ _ h
          | finish => trivial
      exact this ops [] _ hO
    · intro _ j x hx h0
      exact absurd (List.eq_of_mem_replicate (List.mem_of_getElem? hx)) h0
  refine ⟨I.valid, ?_⟩
  rw [execAll_append] at h
  simp only [Option.bind_eq_some_iff, execAll, exec, Option.some.injEq] at h
  obtain ⟨t, ht, u, rfl, v, rfl, rfl⟩ := h
  rw [← I.dev]
  have hl0 : t.cleanup.layout = 0 := rfl
  have g1 : ∀ h, d.setLayouts h = none := fun h => by
    cases hx : d.setLayouts h with
    | none => rfl
    | some x => exact absurd hl0 (I.only1 h (by simp [hx])).2
  have g2 : ∀ h, d.pipeLayouts h = none := fun h => by
    cases hx : d.pipeLayouts h with
    | none => rfl
    | some x => exact absurd hl0 (I.only2 h (by simp [hx])).2
  have g3 : ∀ h, d.pools h = none := fun h => by
    cases hx : d.pools h with
    | none => rfl
    | some x => exact absurd hl0 (I.only3 h (by simp [hx])).2
  have g4 : ∀ h, d.sets h = none := fun h => by
    cases hx : d.sets h with
    | none => rfl
    | some x => exact absurd hl0 (I.only4 h x hx).2
  have g5 : ∀ h, d.pipes h = none := fun h => by
    cases hx : d.pipes h with
    | none => rfl
    | some x =>
      obtain ⟨a, b⟩ := hN h (by simp [hx])
      rcases b with b | b
      · have : ∀ y ∈ t.cleanup.pipelines, y = 0 := by simp [St.cleanup]
        exact absurd (this h b) a
      · simp at b
  cases d
  simp only [Dev.empty, Dev.mk.injEq]
  exact ⟨funext g1, funext g2, funext g3, funext g4, funext g5⟩

theorem addSize_types (t : DescType) (n : Nat) (r : List (DescType × Nat)) :
    (addSize t n r).map (·.1) = if t ∈ r.map (·.1) then r.map (·.1) else r.map (·.1) ++ [t] := by
  induction r with
  | nil => simp [addSize]
  | cons e es ih =>
    simp only [addSize]
    by_cases h : t = e.1
    · simp [h]
    · rw [if_neg h, List.map_cons, ih, List.map_cons]
      by_cases h2 : t ∈ es.map (·.1)
      · rw [if_pos h2, if_pos (List.mem_cons_of_mem _ h2)]
      · rw [if_neg h2, if_neg (by simp only [List.mem_cons, not_or]; exact ⟨h, h2⟩)]; rfl

theorem sizes_types (n : Nat) (bs : List Binding) : ∀ r : List (DescType × Nat), (r.map (·.1)).Nodup →
    ((bs.foldl (fun r b => addSize b.2 (w32 (1 * n)) r) r).map (·.1)).Nodup ∧
    ∀ t, t ∈ (bs.foldl (fun r b => addSize b.2 (w32 (1 * n)) r) r).map (·.1) ↔ t ∈ r.map (·.1) ∨ ∃ b ∈ bs, b.2 = t := by
  induction bs with
  | nil => intro r hr; exact ⟨hr, fun t => by simp⟩
  | cons b bs ih =>
    intro r hr
    have h1 := addSize_types b.2 (w32 (1 * n)) r
    have hn : ((addSize b.2 (w32 (1 * n)) r).map (·.1)).Nodup := by
      rw [h1]
      split
      · exact hr
      · next h =>
        rw [List.nodup_append]
        exact ⟨hr, by simp, by intro x hx y hy; simp only [List.mem_singleton] at hy; subst hy; intro e; subst e; exact h hx⟩
    obtain ⟨a, c⟩ := ih _ hn
    rw [List.foldl_cons]
    refine ⟨a, fun t => ?_⟩
    rw [c t, h1]
    simp only [List.mem_cons, exists_eq_or_imp]
    by_cases hb : b.2 ∈ r.map (·.1)
    · rw [if_pos hb]
      constructor
      · rintro (h | h)
        · exact Or.inl h
        · exact Or.inr (Or.inr h)
      · rintro (h | h | h)
        · exact Or.inl h
        · exact Or.inl (h ▸ hb)
        · exact Or.inr h
    · rw [if_neg hb, List.mem_append, List.mem_singleton]
      constructor
      · rintro ((h | h) | h)
        · exact Or.inl h
        · exact Or.inr (Or.inl h.symm)
        · exact Or.inr (Or.inr h)
      · rintro (h | h | h)
        · exact Or.inl (Or.inl h)
        · exact Or.inl (Or.inr h.symm)
        · exact Or.inr h

theorem capacity_mem (r : List (DescType × Nat)) (hr : (r.map (·.1)).Nodup) (t : DescType) (c : Nat) (h : (t, c) ∈ r) :
    capacity r t = c := by
  induction r with
  | nil => cases h
  | cons e es ih =>
    simp only [List.map_cons, List.nodup_cons] at hr
    simp only [capacity, List.filter_cons]
    rcases List.mem_cons.mp h with rfl | h
    · have : es.filter (fun e => decide (e.1 = t)) = [] := by
        rw [List.filter_eq_nil_iff]
        intro x hx
        simp only [decide_eq_true_eq]
        intro e'
        exact hr.1 (List.mem_map.mpr ⟨x, hx, e'⟩)
      simp [this]
    · have : e.1 ≠ t := by
        rintro rfl
        exact hr.1 (List.mem_map.mpr ⟨(e.1, c), h, rfl⟩)
      simp only [this, decide_false]
      exact ih hr.2 h

/-- C35. The sizes a pool is created with have one entry for each descriptor type in use, the number of bindings of this
type times the number of sets. -/
theorem pool_sizes_exact (bs : List Binding) (n : Nat) (h : bs.length * n < 2 ^ 32) :
    ((getBindingsSizes bs n).map (·.1)).Nodup ∧
    ∀ t c, (t, c) ∈ getBindingsSizes bs n ↔ (∃ b ∈ bs, b.2 = t) ∧ c = (bs.filter fun b => b.2 = t).length * n := by
  have hst : ((getBindingsSizes bs n).map (·.1)).Nodup ∧ ∀ t, t ∈ (getBindingsSizes bs n).map (·.1) ↔
      t ∈ ([] : List (DescType × Nat)).map (·.1) ∨ ∃ b ∈ bs, b.2 = t := sizes_types n bs [] (by simp)
  obtain ⟨a, b⟩ := hst
  refine ⟨a, fun t c => ?_⟩
  have hc := capacity_sizes bs n h t
  have hb : t ∈ (getBindingsSizes bs n).map (·.1) ↔ ∃ b ∈ bs, b.2 = t := by
    simpa using b t
  rw [countType, Nat.mul_comm] at hc
  constructor
  · intro hm
    exact ⟨hb.mp (List.mem_map.mpr ⟨_, hm, rfl⟩), by rw [← hc]; exact (capacity_mem _ a t c hm).symm⟩
  · rintro ⟨h1, rfl⟩
    obtain ⟨⟨t', c⟩, hm, rfl⟩ := List.mem_map.mp (hb.mpr h1)
    have := capacity_mem _ a t' c hm
    simp only at hc ⊢
    rw [← hc, this]
    exact hm

/-! ### Indices in range -/

/-- What does not change during the life of a pass. -/
structure Shape (A B : List Attachment) (C : Option (Nat × (Nat → Nat))) (m n : Nat) (s : St) : Prop where
  images : s.images = A
  buffers : s.buffers = B
  creator : s.creator = C
  programs : s.programs.length = m
  pipelines : s.pipelines.length = m
  sets : s.sets.length = n

section
variable {A B : List Attachment} {C : Option (Nat × (Nat → Nat))} {m n : Nat}

theorem shape_initialise {s : St} (S : Shape A B C m n s) : Shape A B C m n s.initialise := by
  simp only [St.initialise]
  split
  · exact ⟨S.images, S.buffers, S.creator, S.programs, S.pipelines, S.sets⟩
  · exact S

theorem shape_cleanup {s : St} (S : Shape A B C m n s) : Shape A B C m n s.cleanup :=
  ⟨S.images, S.buffers, S.creator, S.programs, by simp [St.cleanup, S.pipelines], by simp [St.cleanup, S.sets]⟩

/-- The index has a pipeline slot, and is one the program creator accepts. -/
def Slotted (C : Option (Nat × (Nat → Nat))) (m i : Nat) : Prop := (m = 1 ∨ i < m) ∧ ∀ c, C = some c → i < c.1

theorem shape_slot {s : St} (S : Shape A B C m n s) {i : Nat} (hi : Slotted C m i) :
    ∃ k, s.slot i = some k ∧ k < m := by
  simp only [St.slot, S.programs, S.pipelines]
  rcases hi.1 with h | h
  · exact ⟨0, by simp [h], by omega⟩
  · by_cases h1 : m = 1
    · exact ⟨0, by simp [h1], by omega⟩
    · exact ⟨i, by simp [h1, h], h⟩

theorem shape_createPipeline {s : St} (S : Shape A B C m n s) {i : Nat} (hi : Slotted C m i) (rp : Nat) :
    ∃ s', s.createPipeline i rp = some s' ∧ Shape A B C m n s' := by
  have h1 : ∃ t, s.cacheProgram i = some t ∧ Shape A B C m n t := by
    simp only [St.cacheProgram]
    cases hc : s.creator with
    | none => exact ⟨s, rfl, S⟩
    | some c =>
      obtain ⟨a, c⟩ := c
      have := hi.2 (a, c) (by rw [← S.creator]; exact hc)
      simp only at this
      exact ⟨_, if_pos this, S.images, S.buffers, by rw [← S.creator, hc], by simp [S.programs], S.pipelines, S.sets⟩
  obtain ⟨t, ht, T⟩ := h1
  have h2 : ∃ p, s.getProgram i = some (p, t) := by
    simp only [St.getProgram, ht, Option.bind_some]
    rcases hi.1 with h | h
    · rw [if_pos (by rw [T.programs]; exact h)]
      exact ⟨t.programs[0]'(by rw [T.programs]; omega), by simp⟩
    · by_cases h1 : t.programs.length = 1
      · rw [if_pos h1]
        exact ⟨t.programs[0]'(by omega), by simp⟩
      · rw [if_neg h1]
        exact ⟨t.programs[i]'(by rw [T.programs]; omega), by simp [T.programs, h]⟩
  obtain ⟨p, hp⟩ := h2
  obtain ⟨k, hk, -⟩ := shape_slot T hi
  simp only [St.createPipeline, hp, hk, Option.bind_eq_bind, Option.bind_some, Option.pure_def]
  exact ⟨_, rfl, T.images, T.buffers, T.creator, T.programs, by simp [T.pipelines], T.sets⟩

theorem shape_createIfNone {s : St} (S : Shape A B C m n s) {i : Nat} (hi : Slotted C m i) :
    ∃ s', s.createIfNone i = some s' ∧ Shape A B C m n s' := by
  obtain ⟨k, hk, hlt⟩ := shape_slot S hi
  have : s.pipelines[k]? = some (s.pipelines[k]'(by rw [S.pipelines]; exact hlt)) := by simp
  simp only [St.createIfNone, hk, this, Option.bind_eq_bind, Option.bind_some]
  split
  · exact ⟨s, rfl, S⟩
  · exact shape_createPipeline S hi _

theorem shape_resetPipeline {s : St} (S : Shape A B C m n s) {i : Nat} (hi : Slotted C m i) (p : Nat) :
    ∃ s', s.resetPipeline p i = some s' ∧ Shape A B C m n s' := by
  have hk : (if m = 1 then 0 else i) < m := by
    have := hi.1
    split <;> omega
  simp only [St.resetPipeline, S.pipelines]
  generalize (if m = 1 then 0 else i) = k at hk
  have : s.pipelines[k]? = some (s.pipelines[k]'(by rw [S.pipelines]; exact hk)) := by simp
  simp only [this, Option.bind_eq_bind, Option.bind_some, Option.pure_def]
  have T : Shape A B C m n (if s.pipelines[k]'(by rw [S.pipelines]; exact hk) ≠ 0 then
      { s with queue := s.queue ++ [s.pipelines[k]'(by rw [S.pipelines]; exact hk)], pipelines := s.pipelines.set k 0 } else s) := by
    split
    · exact ⟨S.images, S.buffers, S.creator, S.programs, by simp [S.pipelines], S.sets⟩
    · exact S
  revert T
  generalize (if s.pipelines[k]'(by rw [S.pipelines]; exact hk) ≠ 0 then
      { s with queue := s.queue ++ [s.pipelines[k]'(by rw [S.pipelines]; exact hk)], pipelines := s.pipelines.set k 0 } else s) = t
  intro T
  split
  · rw [if_pos (by rw [T.programs]; exact hk)]
    exact ⟨_, rfl, T.images, T.buffers, T.creator, by simp [T.programs], T.pipelines, T.sets⟩
  · exact ⟨_, rfl, T⟩

theorem shape_resetRenderPass {s : St} (S : Shape A B C m n s) {i : Nat} (hi : Slotted C m i) (rp : Nat) :
    ∃ s', s.resetRenderPass rp i = some s' ∧ Shape A B C m n s' := by
  obtain ⟨t, ht, T⟩ := shape_resetPipeline S hi 0
  simp only [St.resetRenderPass, ht, Option.bind_eq_bind, Option.bind_some]
  refine shape_createIfNone ?_ hi
  exact ⟨T.images, T.buffers, T.creator, T.programs, T.pipelines, T.sets⟩

theorem shape_prepare {s : St} (S : Shape A B C m n s) {i : Nat} (hi : Slotted C m i) (k : Kind) :
    ∃ s', s.prepare k i = some s' ∧ Shape A B C m n s' := by
  have again : ∀ (t : St) (rp : Nat), Shape A B C m n t →
      ∃ s', ((if t.renderPass ≠ rp then t.resetRenderPass rp i else some t).bind fun s => s.createIfNone i) = some s' ∧
        Shape A B C m n s' := by
    intro t rp T
    have : ∃ u, (if t.renderPass ≠ rp then t.resetRenderPass rp i else some t) = some u ∧ Shape A B C m n u := by
      split
      · exact shape_resetRenderPass T hi rp
      · exact ⟨t, rfl, T⟩
    obtain ⟨u, hu, U⟩ := this
    rw [hu]
    exact shape_createIfNone U hi
  cases k with
  | compute => exact shape_createPipeline (shape_initialise S) hi 0
  | quad =>
    have T : Shape A B C m n { s with next := s.next + 1 } := ⟨S.images, S.buffers, S.creator, S.programs, S.pipelines, S.sets⟩
    simp only [St.prepare]
    split
    · have U := shape_initialise T
      refine shape_createIfNone ?_ hi
      exact ⟨U.images, U.buffers, U.creator, U.programs, U.pipelines, U.sets⟩
    · exact again _ _ T
  | mesh =>
    have T : Shape A B C m n { s with next := s.next + 1 } := ⟨S.images, S.buffers, S.creator, S.programs, S.pipelines, S.sets⟩
    simp only [St.prepare]
    have U := shape_initialise (shape_cleanup T)
    split
    · refine shape_createIfNone ?_ hi
      exact ⟨U.images, U.buffers, U.creator, U.programs, U.pipelines, U.sets⟩
    · exact again _ _ U

theorem shape_recordInto {s : St} (S : Shape A B C m n s) {i : Nat} (hi : Slotted C m i) (hn : i < n)
    (hw : fillWrites A B i ≠ none) : ∃ s', s.recordInto i = some s' ∧ Shape A B C m n s' := by
  have h1 : ∃ t, s.createDescriptorSet i = some t ∧ Shape A B C m n t := by
    have : s.sets[i]? = some (s.sets[i]'(by rw [S.sets]; exact hn)) := by simp
    simp only [St.createDescriptorSet, this, Option.bind_eq_bind, Option.bind_some]
    split
    · exact ⟨s, rfl, S⟩
    · rw [S.images, S.buffers]
      cases hf : fillWrites A B i with
      | none => exact absurd hf hw
      | some ws =>
        exact ⟨_, rfl, rfl, rfl, S.creator, S.programs, S.pipelines, by simp [S.sets]⟩
  obtain ⟨t, ht, T⟩ := h1
  obtain ⟨k, hk, hlt⟩ := shape_slot T hi
  have e1 : t.pipelines[k]? = some (t.pipelines[k]'(by rw [T.pipelines]; exact hlt)) := by simp
  have e2 : t.sets[i]? = some (t.sets[i]'(by rw [T.sets]; exact hn)) := by simp
  simp only [St.recordInto, ht, hk, e1, e2, Option.bind_eq_bind, Option.bind_some]
  exact ⟨_, rfl, T.images, T.buffers, T.creator, T.programs, T.pipelines, T.sets⟩

end

theorem fillWrites_some (pass i : Nat) (is : List AddImage) (bs : List AddBuffer)
    (h1 : ∀ a ∈ is, pick a.views i ≠ none) (h2 : ∀ a ∈ bs, pick a.buffers i ≠ none) :
    fillWrites (is.map (·.attach pass)) (bs.map (·.attach pass)) i ≠ none := by
  have a1 : ∃ ws, (is.map (·.attach pass)).mapM (imageWrite · i) = some ws := by
    induction is with
    | nil => exact ⟨[], rfl⟩
    | cons a is ih =>
      obtain ⟨ws, hws⟩ := ih fun x hx => h1 x (by simp [hx])
      have : ∃ w, imageWrite (a.attach pass) i = some w := by
        rw [image_write]
        obtain ⟨v, hv⟩ := Option.ne_none_iff_exists'.mp (h1 a (by simp))
        obtain ⟨how, b, vs⟩ := a
        simp only at hv
        cases how <;> simp [AddImage.type, AddImage.descriptor, hv]
      obtain ⟨w, hw⟩ := this
      exact ⟨w :: ws, by rw [List.map_cons, List.mapM_cons, hw, Option.bind_eq_bind, Option.bind_some, hws]; rfl⟩
  have a2 : ∃ ws, ((bs.map (·.attach pass)).filter fun a => a.isStorageBuffer || isUniformBuffer a).mapM (bufferWrite · i) = some ws := by
    induction bs with
    | nil => exact ⟨[], rfl⟩
    | cons a bs ih =>
      obtain ⟨ws, hws⟩ := ih fun x hx => h2 x (by simp [hx])
      rw [List.map_cons, List.filter_cons, (buffer_bound pass a).2.1]
      by_cases ht : a.type.isSome
      · rw [if_pos ht]
        have : ∃ w, bufferWrite (a.attach pass) i = some w := by
          rw [buffer_write _ _ _ ht]
          obtain ⟨v, hv⟩ := Option.ne_none_iff_exists'.mp (h2 a (by simp))
          obtain ⟨how, b, vs, v', o, z⟩ := a
          simp only at hv
          cases how <;> simp [AddBuffer.type] at ht <;> simp [AddBuffer.descriptor, hv]
        obtain ⟨w, hw⟩ := this
        exact ⟨w :: ws, by rw [List.mapM_cons, hw, Option.bind_eq_bind, Option.bind_some, hws]; rfl⟩
      · rw [if_neg ht]; exact ⟨ws, hws⟩
  obtain ⟨x, hx⟩ := a1
  obtain ⟨y, hy⟩ := a2
  simp [fillWrites, hx, hy]

/-- C57. A use of a pass with indices in range never fails an assertion nor reads out of an array: the recorded indices
are below the pass count, have a resource in every attachment, and a program. -/
theorem never_undefined (k : Kind) (pass : Nat) (is : List AddImage) (bs : List AddBuffer) (programs : List Nat)
    (creator : Option (Nat × (Nat → Nat))) (n : Nat) (ops : List Op)
    (hr : ∀ o ∈ ops, match o with
      | .record i _ => i < n ∧ (∀ a ∈ is, pick a.views i ≠ none) ∧ (∀ a ∈ bs, pick a.buffers i ≠ none) ∧
        (match creator with | some c => i < c.1 | none => programs.length = 1 ∨ i < programs.length)
      | .reset _ i => (match creator with | some c => i < c.1 | none => programs.length = 1 ∨ i < programs.length)
      | _ => True) :
    execAll k (St.new (is.map (·.attach pass)) (bs.map (·.attach pass)) programs creator n) ops ≠ none := by
  have S0 : Shape (is.map (·.attach pass)) (bs.map (·.attach pass)) creator (creator.elim programs.length (·.1)) n
      (St.new (is.map (·.attach pass)) (bs.map (·.attach pass)) programs creator n) := by
    cases creator with
    | none => exact ⟨rfl, rfl, rfl, rfl, by simp [St.new], by simp [St.new]⟩
    | some c =>
      refine ⟨rfl, rfl, rfl, ?_, ?_, by simp [St.new]⟩ <;> simp [St.new] <;> omega
  have hslot : ∀ i, (match creator with | some c => i < c.1 | none => programs.length = 1 ∨ i < programs.length) →
      Slotted creator (creator.elim programs.length (·.1)) i := by
    intro i h
    cases creator with
    | none => exact ⟨h, by simp⟩
    | some c => exact ⟨Or.inr h, by intro c' hc; cases hc; exact h⟩
  revert S0
  generalize (creator.elim programs.length (·.1)) = m at hslot
  generalize St.new (is.map (·.attach pass)) (bs.map (·.attach pass)) programs creator n = s
  intro S0
  induction ops generalizing s with
  | nil => simp [execAll]
  | cons o ops ih =>
    have h0 := hr o (by simp)
    have ih := ih fun x hx => hr x (by simp [hx])
    have : ∃ t, exec k s o = some t ∧ Shape (is.map (·.attach pass)) (bs.map (·.attach pass)) creator m n t := by
      cases o with
      | record i fresh =>
        simp only at h0
        obtain ⟨h1, h2, h3, h4⟩ := h0
        have hi := hslot i h4
        simp only [exec]
        have : ∃ t, (if fresh then s.prepare k i else some s) = some t ∧ Shape (is.map (·.attach pass)) (bs.map (·.attach pass)) creator m n t := by
          cases fresh with
          | true => exact shape_prepare S0 hi k
          | false => exact ⟨s, rfl, S0⟩
        obtain ⟨t, ht, T⟩ := this
        rw [ht, Option.bind_some]
        have : ∃ u, (if k = .compute then some t else t.createIfNone i) = some u ∧ Shape (is.map (·.attach pass)) (bs.map (·.attach pass)) creator m n u := by
          split
          · exact ⟨t, rfl, T⟩
          · exact shape_createIfNone T hi
        obtain ⟨u, hu, U⟩ := this
        rw [hu, Option.bind_some]
        exact shape_recordInto U hi h1 (fillWrites_some pass i is bs h2 h3)
      | reset p i =>
        have hi := hslot i h0
        obtain ⟨t, ht, T⟩ := shape_resetPipeline S0 hi p
        simp only [exec, ht, Option.bind_some]
        split
        · exact shape_createPipeline T hi 0
        · split
          · exact shape_createIfNone T hi
          · exact ⟨t, rfl, T⟩
      | run => exact ⟨_, rfl, S0.images, S0.buffers, S0.creator, S0.programs, S0.pipelines, S0.sets⟩
      | finish => exact ⟨_, rfl, shape_cleanup S0⟩
    obtain ⟨t, ht, T⟩ := this
    simp only [execAll, ht, Option.bind_some]
    exact ih t T

/-! ### Concrete uses -/

def exImg (id : Nat) : Image := ⟨id, 37, 1, 1, 16, 16, 1⟩
def exView (id : Nat) : View := ⟨id, exImg id, .d2, 37, ⟨1, 0, 1, 0, 1⟩⟩
/-- A sampled image, one storage image for each of two indices, an attachment that is no descriptor. -/
def exImages : List AddImage :=
  [⟨.sampled, 0, [exView 1]⟩, ⟨.inOutStorage, 1, [exView 2, exView 3]⟩, ⟨.outputColour, 0, [exView 4]⟩]
/-- A uniform buffer and a storage texel buffer. -/
def exBuffers : List AddBuffer := [⟨.uniform, 2, [10], 0, 0, 64⟩, ⟨.inOutStorageView, 3, [11], 12, 0, 256⟩]
/-- Both indices recorded, a new program for the second, the pass destroyed, a last run. -/
def exOps : List Op :=
  [.record 0 true, .record 1 true, .reset 7 1, .record 1 false, .run, .record 0 false, .finish, .run]

/-- The hypotheses of the theorems hold of this use, for a compute pass… -/
theorem exOps_compute : Legal .compute [] exOps ∧ OneEach .compute false [] exOps ∧
    ((promised exImages exBuffers).map (·.1)).Nodup ∧ (promised exImages exBuffers).length * 2 < 2 ^ 32 ∧
    (execAll .compute (St.new (exImages.map (·.attach 5)) (exBuffers.map (·.attach 5)) [5, 6] none 2) exOps).isSome := by
  refine ⟨?_, ?_, by decide, by decide, by decide⟩
  · simp [Legal, exOps]
  · simp [OneEach, exOps]

/-- …and, with new render passes in between, for a quad and a mesh pass. -/
theorem exOps_render : ∀ k, k ≠ .compute →
    Legal k [] [.record 0 true, .record 1 true, .reset 7 1, .record 1 true, .run, .record 0 false, .finish, .run] ∧
    (execAll k (St.new (exImages.map (·.attach 5)) (exBuffers.map (·.attach 5)) [5, 6] none 2)
      [.record 0 true, .record 1 true, .reset 7 1, .record 1 true, .run, .record 0 false, .finish, .run]).isSome := by
  intro k hk
  cases k with
  | compute => exact absurd rfl hk
  | quad => exact ⟨by simp [Legal], by decide⟩
  | mesh => exact ⟨by simp [Legal], by decide⟩

/-- The configured program, for this use: index 1 got program 7. -/
example : programAfter [5, 6] (exOps.take 3) 1 = some 7 ∧ programAfter [5, 6] exOps 0 = some 5 := by decide

/-- C55 does not hold without the condition: a compute pass with one program, recorded for two indices, creates a
pipeline for each of them in the only slot; the first one is never destroyed. -/
theorem compute_pipeline_leaks : ∃ s, execAll .compute (St.new [] [] [5] none 2)
      [.record 0 true, .record 1 true, .finish, .run] = some s ∧
    Legal .compute [] [.record 0 true, .record 1 true, .finish, .run] ∧ after Dev.empty s.evs ≠ Dev.empty ∧
    ∃ h, .createPipe h 5 0 2 ∈ s.evs ∧ .destroyPipe h ∉ s.evs := by
  refine ⟨_, rfl, by simp [Legal], ?_, 4, ?_, ?_⟩
  · intro e
    have h : some (⟨5, 0, 2⟩ : Pipeline) = none := congrFun (congrArg Dev.pipes e) 4
    cases h
  · decide
  · decide

/-- C56 does not extend to passes with a program creator: the program given to `resetPipeline` is not used. -/
theorem reset_ignored_with_creator : ∃ s, execAll .compute (St.new [] [] [] (some (1, fun _ => 5)) 1)
      [.record 0 true, .reset 7 0, .record 0 false] = some s ∧
    Legal .compute [] [.record 0 true, .reset 7 0, .record 0 false] ∧
    ∃ h l x, s.evs.getLast? = some (.bind h l x) ∧ .createPipe h 5 0 l ∈ s.evs := by
  refine ⟨_, rfl, by simp [Legal], 6, 2, 5, by decide, by decide⟩

/-- C35 does not extend to `resetPipeline` before the first recording of a compute pass: it creates a pipeline with the
null pipeline layout. -/
theorem early_reset_invalid : ∃ s, execAll .compute (St.new [] [] [5] none 1) [.reset 7 0] = some s ∧
    ¬ TraceValid Dev.empty s.evs := by
  refine ⟨_, rfl, ?_⟩
  simp [St.new, TraceValid, Valid, Dev.empty]

/-- C35 does not extend to two declarations under one binding number. -/
theorem same_binding_invalid : ∃ s, execAll .compute
      (St.new ([⟨.sampled, 0, [exView 1]⟩, ⟨.inOutStorage, 0, [exView 2]⟩].map (AddImage.attach 5)) [] [5] none 1)
      [.record 0 true] = some s ∧ ¬ TraceValid Dev.empty s.evs := by
  refine ⟨_, rfl, ?_⟩
  rintro ⟨h, -⟩
  exact absurd h.2.2 (by decide)

end Verif.Pipe
