import Verif.Spec.Timer
import Verif.Lemmas.Util
/-!
C33 (queries of different timers) and C34 (queries read).
-/
namespace Verif.Timer

/-! ## C33 -/

theorem step_offsets {t : Timer} {o : Op} {b : Nat}
    (h : ∀ q, q = t.front ∨ q = t.back → b ≤ q.offset ∧ q.offset + 2 ≤ b + 4) :
    (∀ q, q = (step t o).1.front ∨ q = (step t o).1.back → b ≤ q.offset ∧ q.offset + 2 ≤ b + 4) ∧
    ∀ a ∈ (step t o).2, ∀ q ∈ a.queries, b ≤ q ∧ q < b + 4 := by
  have h1 := h t.front (.inl rfl)
  have h2 := h t.back (.inr rfl)
  cases o with
  | beginPass =>
    simp only [step]
    refine ⟨fun q hq => h q hq.symm, ?_⟩
    simp only [List.mem_cons, List.not_mem_nil, or_false]
    rintro a (rfl | rfl) q hq <;> simp [Act.queries] at hq <;> omega
  | endPass =>
    simp only [step]
    refine ⟨?_, ?_⟩
    · rintro q (rfl | rfl)
      · exact h1
      · exact h2
    · simp only [List.mem_cons, List.not_mem_nil, or_false]
      rintro a rfl q hq
      simp [Act.queries] at hq; omega
  | notify =>
    simp only [step]
    refine ⟨?_, by simp⟩
    rintro q (rfl | rfl)
    · exact h1
    · exact h2
  | retrieve =>
    simp only [step]
    split
    · refine ⟨?_, ?_⟩
      · rintro q (rfl | rfl)
        · exact h1
        · exact h2
      · simp only [List.mem_cons, List.not_mem_nil, or_false]
        rintro a rfl q hq
        simp [Act.queries] at hq; omega
    · exact ⟨h, by simp⟩

theorem exec_queries {t : Timer} {os : List Op} {b : Nat}
    (h : ∀ q, q = t.front ∨ q = t.back → b ≤ q.offset ∧ q.offset + 2 ≤ b + 4) :
    ∀ a ∈ (exec t os).2, ∀ q ∈ a.queries, b ≤ q ∧ q < b + 4 := by
  induction os generalizing t with
  | nil => simp [exec]
  | cons o os ih =>
    have hs := step_offsets (o := o) h
    intro a ha
    rcases List.mem_append.mp ha with ha | ha
    · exact hs.2 a ha
    · exact ih hs.1 a ha

theorem makeAll_get {n base i : Nat} {t : Timer} (hb : base + 4 * n < 2 ^ 32)
    (h : (makeAll base n)[i]? = some t) :
    i < n ∧ t = ⟨{ offset := base + 4 * i }, { offset := base + 4 * i + 2 }⟩ := by
  induction n generalizing base i with
  | zero => simp [makeAll] at h
  | succ n ih =>
    have hm : (base + 4) % 2 ^ 32 = base + 4 := Nat.mod_eq_of_lt (by omega)
    cases i with
    | zero =>
      simp only [makeAll, make, List.getElem?_cons_zero, Option.some.injEq] at h
      exact ⟨by omega, h.symm⟩
    | succ i =>
      simp only [makeAll, make, hm, List.getElem?_cons_succ] at h
      obtain ⟨h1, h2⟩ := ih (by omega) h
      refine ⟨by omega, ?_⟩
      rw [h2]
      have : base + 4 + 4 * i = base + 4 * (i + 1) := by omega
      rw [this]

theorem makeAll_length (base n : Nat) : (makeAll base n).length = n := by
  induction n generalizing base with
  | zero => rfl
  | succ n ih => simp [makeAll, ih]

/-- **C33**: in a graph of `n` passes (as many as 32 bits can number), whatever calls its timers
(0: the graph's; `i + 1`: pass `i`'s) get, every query a timer resets, writes or reads is in the
pool, and no query of it is one of another timer. -/
theorem queries_disjoint_in_pool (n : Nat) (hn : (n + 1) * 4 < 2 ^ 32) :
    (graphTimers n).length = n + 1 ∧
    ∀ (i : Nat) (t : Timer), (graphTimers n)[i]? = some t →
      ∀ (calls : List Op), ∀ a ∈ (exec t calls).2, ∀ q ∈ a.queries,
        q < poolSize n ∧
        ∀ (j : Nat) (u : Timer), (graphTimers n)[j]? = some u → j ≠ i →
          ∀ (calls' : List Op), ∀ a' ∈ (exec u calls').2, q ∉ a'.queries := by
  refine ⟨makeAll_length 0 _, fun i t hi calls a ha q hq => ?_⟩
  obtain ⟨hi1, rfl⟩ := makeAll_get (by omega) hi
  have key : ∀ k, ∀ calls, ∀ a ∈ (exec ⟨{ offset := 0 + 4 * k }, { offset := 0 + 4 * k + 2 }⟩ calls).2,
      ∀ q ∈ a.queries, 4 * k ≤ q ∧ q < 4 * k + 4 := by
    intro k calls
    refine exec_queries ?_
    rintro q (rfl | rfl) <;> simp
  have h1 := key i calls a ha q hq
  refine ⟨?_, fun j u hj hji calls' a' ha' hq' => ?_⟩
  · have : poolSize n = (n + 1) * 2 * 2 := Nat.mod_eq_of_lt (by omega)
    omega
  · obtain ⟨_, rfl⟩ := makeAll_get (by omega) hj
    have h2 := key j calls' a' ha' q hq'
    omega

/-- The size asked for is a 32 bit number, exact as long as 32 bits can number the queries. -/
theorem poolSize_word (n : Nat) : poolSize n < 2 ^ 32 ∧ ((n + 1) * 4 < 2 ^ 32 → poolSize n = 4 * (n + 1)) := by
  unfold poolSize
  refine ⟨Nat.mod_lt _ (by decide), fun h => ?_⟩
  rw [Nat.mod_eq_of_lt (by omega)]
  omega

/-- A graph of 5 passes: the timer of pass 3 uses queries 16 to 19 of 24. -/
theorem example_timers : (graphTimers 5)[4]? = some ⟨⟨16, false, false⟩, ⟨18, false, false⟩⟩ ∧
    poolSize 5 = 24 := by decide

/-! ## C34: when a timer reads -/

theorem exec_append (t : Timer) (a b : List Op) :
    exec t (a ++ b) = ((exec (exec t a).1 b).1, (exec t a).2 ++ (exec (exec t a).1 b).2) := by
  induction a generalizing t with
  | nil => simp [exec]
  | cons o os ih => simp [exec, ih]

theorem exec_snoc (t : Timer) (a : List Op) (o : Op) :
    (exec t (a ++ [o])).1 = (step (exec t a).1 o).1 := by simp [exec_append, exec]

/-- The state after a history. -/
def HInv (base : Nat) (h : List Op) (t : Timer) : Prop :=
  t.front.offset = current base h ∧
  t.back.offset = current base (.beginPass :: h) ∧
  ∀ q, q = t.front ∨ q = t.back →
    (q.written = true ↔ Since base h q.offset .endPass) ∧
    (q.started = true ↔ Since base h q.offset .notify)

theorem current_snoc (base : Nat) (h : List Op) (o : Op) :
    current base (h ++ [o]) = if o = .beginPass then current base (.beginPass :: h) else current base h := by
  cases o <;> simp [current, List.count_append]

theorem current_two (base : Nat) (h : List Op) : current base (.beginPass :: .beginPass :: h) = current base h := by
  simp [current]; omega

theorem current_ne (base : Nat) (h : List Op) : current base (.beginPass :: h) ≠ current base h := by
  simp [current]; omega

/-- How `Since` changes with one more call. -/
theorem since_snoc (base : Nat) (h : List Op) (o : Nat) (op c : Op) (hop : op ≠ .retrieve) :
    Since base (h ++ [c]) o op ↔
      (c = op ∧ current base h = o) ∨
      (Since base h o op ∧ (c = .retrieve → readAfter base h ≠ [.read o])) := by
  constructor
  · rintro ⟨a, b, hab, hc, hr⟩
    rcases List.eq_nil_or_concat b with rfl | ⟨b', c', rfl⟩
    · have := List.append_inj' hab (by simp)
      left
      obtain ⟨rfl, h2⟩ := this
      exact ⟨by simpa using h2, hc⟩
    · right
      rw [List.concat_eq_append, ← List.cons_append, ← List.append_assoc] at hab
      obtain ⟨h1, h2⟩ := List.append_inj' hab (by simp)
      have h2 : c = c' := by simpa using h2
      subst h2
      refine ⟨⟨a, b', h1, hc, fun b1 b2 hb => hr b1 (b2 ++ [c]) (by simp [hb])⟩, ?_⟩
      rintro rfl
      rw [h1]
      exact hr b' [] (by simp)
  · rintro (⟨rfl, hc⟩ | ⟨⟨a, b, hab, hc, hr⟩, hn⟩)
    · exact ⟨h, [], rfl, hc, fun b1 b2 hb => by simp at hb⟩
    · refine ⟨a, b ++ [c], by simp [hab], hc, fun b1 b2 hb => ?_⟩
      rcases List.eq_nil_or_concat b2 with rfl | ⟨b2', c', rfl⟩
      · obtain ⟨h1, h2⟩ := List.append_inj' hb (by simp)
        have h2 : c = .retrieve := by simpa using h2
        rw [← h1, ← hab]
        exact hn h2
      · rw [List.concat_eq_append, ← List.cons_append, ← List.append_assoc] at hb
        obtain ⟨h1, _⟩ := List.append_inj' hb (by simp)
        exact hr b1 b2' h1

theorem hinv (base : Nat) (h : List Op) : HInv base h (exec (make base).1 h).1 := by
  refine snocInduction (P := fun h => HInv base h (exec (make base).1 h).1) ?nil ?snoc h
  case nil =>
    refine ⟨rfl, rfl, ?_⟩
    have hs : ∀ o op, ¬ Since base [] o op := by
      rintro o op ⟨a, b, hab, _⟩
      simp at hab
    rintro q (rfl | rfl) <;> simp [exec, make, hs]
  case snoc =>
    intro h c ih
    rw [exec_snoc]
    have hread : readAfter base h = (step (exec (make base).1 h).1 .retrieve).2 := rfl
    generalize (exec (make base).1 h).1 = t at ih hread
    obtain ⟨h1, h2, h3⟩ := ih
    have hf := h3 t.front (.inl rfl)
    have hb := h3 t.back (.inr rfl)
    have hne : t.back.offset ≠ t.front.offset := by rw [h1, h2]; exact current_ne base h
    have hcur : ∀ o, current base h = o ↔ t.front.offset = o := by rw [h1]; simp
    have hsnoc := fun o op c hop => since_snoc base h o op c hop
    cases c with
    | beginPass =>
      refine ⟨?_, ?_, ?_⟩
      · simpa [step, current_snoc] using h2
      · show t.front.offset = _
        rw [h1, ← current_two base h]
        simp [current, List.count_append]
      · intro q hq
        rw [hsnoc _ _ _ (by decide), hsnoc _ _ _ (by decide)]
        simpa using h3 q hq.symm
    | endPass =>
      refine ⟨by simpa [step, current_snoc] using h1, ?_, ?_⟩
      · simpa [step, current, List.count_append] using h2
      · intro q hq
        rw [hsnoc _ _ _ (by decide), hsnoc _ _ _ (by decide), hcur]
        rcases hq with rfl | rfl
        · simpa [step] using hf.2
        · simpa [step, hne.symm] using hb
    | notify =>
      refine ⟨by simpa [step, current_snoc] using h1, ?_, ?_⟩
      · simpa [step, current, List.count_append] using h2
      · intro q hq
        rw [hsnoc _ _ _ (by decide), hsnoc _ _ _ (by decide), hcur]
        rcases hq with rfl | rfl
        · simpa [step] using hf.1
        · simpa [step, hne.symm] using hb
    | retrieve =>
      have hh2 : current base (.beginPass :: (h ++ [.retrieve])) = current base (.beginPass :: h) := by
        simp [current, List.count_append]
      have hh1 : current base (h ++ [.retrieve]) = current base h := by
        simp [current, List.count_append]
      unfold HInv
      rw [hh1, hh2]
      by_cases hc : t.front.started && t.front.written
      · have hr : readAfter base h = [.read t.front.offset] := by rw [hread]; simp [step, hc]
        simp only [step, hc, if_true]
        refine ⟨h1, h2, ?_⟩
        intro q hq
        rw [hsnoc _ _ _ (by decide), hsnoc _ _ _ (by decide), hr]
        rcases hq with rfl | rfl
        · simp
        · simpa [hne.symm] using hb
      · have hr : readAfter base h = [] := by rw [hread]; simp [step, hc]
        simp only [step, hc, Bool.false_eq_true, if_false]
        refine ⟨h1, h2, ?_⟩
        intro q hq
        rw [hsnoc _ _ _ (by decide), hsnoc _ _ _ (by decide), hr]
        simpa using h3 q hq

/-- **C34**: whatever calls a timer got, `retrieveGpuTime` reads the pair of queries in use exactly
if the end of the pass was recorded with this pair, and the timer notified with this pair, since the
pair was last read; otherwise it reads nothing. -/
theorem reads_iff_recorded_and_notified (base : Nat) (h : List Op) (o : Nat) :
    (readAfter base h = [.read o] ↔
      o = current base h ∧ Since base h o .endPass ∧ Since base h o .notify) ∧
    (readAfter base h = [] ∨ readAfter base h = [.read (current base h)]) := by
  obtain ⟨h1, _, h3⟩ := hinv base h
  have hf := h3 _ (.inl rfl)
  have hread : readAfter base h = (step (exec (make base).1 h).1 .retrieve).2 := rfl
  generalize (exec (make base).1 h).1 = t at h1 hf hread
  rw [← h1, hread]
  simp only [step]
  by_cases hc : t.front.started && t.front.written
  · simp only [hc, if_true]
    simp only [Bool.and_eq_true] at hc
    refine ⟨⟨fun e => ?_, fun e => by rw [e.1]⟩, by simp⟩
    have : t.front.offset = o := by simpa using e
    subst this
    exact ⟨rfl, hf.1.mp hc.2, hf.2.mp hc.1⟩
  · simp only [hc, Bool.false_eq_true, if_false]
    refine ⟨⟨fun e => by simp at e, ?_⟩, by simp⟩
    rintro ⟨rfl, e1, e2⟩
    exact absurd (by simp [hf.1.mpr e1, hf.2.mpr e2]) hc

/-- Something is read, then nothing until the pass is recorded and notified again. -/
theorem example_reads :
    readAfter 8 [.beginPass, .endPass, .notify] = [.read 10] ∧
    readAfter 8 [.beginPass, .endPass, .notify, .retrieve] = [] ∧
    readAfter 8 [.beginPass, .endPass, .notify, .retrieve, .beginPass, .endPass, .notify] =
      [.read 8] := by decide

/-! ## C34: the queries read were submitted -/

/-- A query that was notified is written by submitted commands. -/
def RInv (t : Timer) (d : Dev) : Prop :=
  (t.front.offset + 2 ≤ t.back.offset ∨ t.back.offset + 2 ≤ t.front.offset) ∧
  ∀ q, q = t.front ∨ q = t.back → q.started = true →
    d.ready q.offset = true ∧ d.ready (q.offset + 1) = true

theorem valid_append {d a b} : Valid d (a ++ b) ↔ Valid d a ∧ Valid (a.foldl Dev.after d) b := by
  induction a generalizing d with
  | nil => simp [Valid]
  | cons e a ih => simp [Valid, ih, and_assoc]

theorem cmds_effect (d : Dev) (as : List Act) :
    Valid d (as.map .cmd) ∧
      (as.map Event.cmd).foldl Dev.after d = { d with buffer := d.buffer ++ as } := by
  induction as generalizing d with
  | nil => simp [Valid]
  | cons a as ih =>
    simp only [List.map_cons, Valid, List.foldl_cons, Dev.after, ih]
    simp [Dev.Allows]

theorem others_effect (d : Dev) (as : List Act) :
    Valid d (as.map .other) ∧ (as.map Event.other).foldl Dev.after d = d := by
  induction as generalizing d with
  | nil => simp [Valid]
  | cons a as ih => simpa [Valid, Dev.Allows, Dev.after] using ih d

theorem recordPass_inv {t : Timer} {d : Dev} (e : Bool) (h : RInv t d) : RInv (recordPass e t).1 d := by
  cases e with
  | false => exact h
  | true =>
    obtain ⟨h1, h2⟩ := h
    simp only [recordPass, if_true, exec, step]
    refine ⟨h1.symm, ?_⟩
    rintro q (rfl | rfl)
    · exact fun hs => h2 t.back (.inr rfl) hs
    · exact fun hs => h2 t.front (.inl rfl) hs

theorem use_inv {t : Timer} {d : Dev} {u : Use} (hs : Stable u) (h : RInv t d) :
    Valid d (use t u).2 ∧ RInv (use t u).1 ((use t u).2.foldl Dev.after d) := by
  cases u with
  | record e =>
    simp only [use, Valid, List.foldl_cons, Dev.after, cmds_effect]
    exact ⟨⟨trivial, trivial⟩, recordPass_inv e h⟩
  | reRecord e =>
    simp only [use, others_effect]
    exact ⟨trivial, recordPass_inv e h⟩
  | retrieve =>
    obtain ⟨h1, h2⟩ := h
    simp only [use, step]
    split
    case isTrue hc =>
      simp only [Bool.and_eq_true] at hc
      refine ⟨⟨h2 _ (.inl rfl) hc.1, trivial⟩, h1, ?_⟩
      rintro q (rfl | rfl)
      · simp
      · exact h2 _ (.inr rfl)
    case isFalse hc => exact ⟨trivial, h1, h2⟩
  | run e e' =>
    simp only [Stable] at hs
    subst hs
    have hv : Valid d (use t (.run e e)).2 ∧ ((use t (.run e e)).2.foldl Dev.after d) =
        { buffer := (recordPass e t).2, ready := (recordPass e t).2.foldl execAct d.ready } := by
      simp only [use]
      rw [List.cons_append]
      simp only [Valid, List.foldl_cons, Dev.after, valid_append, List.foldl_append,
        cmds_effect, List.foldl_nil]
      simp [Dev.Allows]
    refine ⟨hv.1, ?_⟩
    rw [hv.2]
    cases e with
    | false => exact h
    | true =>
      obtain ⟨h1, h2⟩ := h
      simp only [use, recordPass, if_true, exec, step]
      refine ⟨h1.symm, ?_⟩
      rintro q (rfl | rfl)
      · intro _
        simp [execAct]
      · intro hst
        have := h2 _ (.inl rfl) hst
        have a1 : t.front.offset ≠ t.back.offset := by omega
        have a2 : t.front.offset ≠ t.back.offset + 1 := by omega
        have a3 : t.front.offset + 1 ≠ t.back.offset := by omega
        simp [execAct, a1, a2, a3, this]

theorem uses_valid {t : Timer} {d : Dev} {us : List Use} (hs : ∀ u ∈ us, Stable u) (h : RInv t d) :
    Valid d (uses t us).2 := by
  induction us generalizing t d with
  | nil => trivial
  | cons u us ih =>
    have := use_inv (hs u List.mem_cons_self) h
    exact valid_append.mpr ⟨this.1, ih (fun u hu => hs u (List.mem_cons_of_mem _ hu)) this.2⟩

/-- **C34** (partial): a pass whose `isEnabled()` doesn't change while a run goes on: after any
history of records, re-records, runs and reads, the queries read are written by submitted commands.
It holds of the timer of the graph, always recorded and notified (`e = e' = true`). Missing: passes
whose enablement changes between recording and notification (`read_hangs`). -/
theorem reads_submitted_partial (base : Nat) (us : List Use) (hs : ∀ u ∈ us, Stable u) :
    Valid {} (uses (make base).1 us).2 :=
  uses_valid hs ⟨by simp [make], by rintro q (rfl | rfl) <;> simp [make]⟩

/-- Two runs, a record, a disabled run, reads in between: two pairs of queries are read. -/
theorem example_uses :
    ((uses (make 4).1 [.run true true, .retrieve, .record true, .run false false, .retrieve,
      .run true true, .run true true, .retrieve]).2.filterMap
        fun | .call (.read o) => some o | _ => none) = [6, 4] := by decide

/-- **Negation**: a pass recorded (by `record()`), disabled while the next run records and enabled
again when it is notified: its queries are waited for though no submitted command writes them. -/
theorem read_hangs (base : Nat) :
    ¬ Valid {} (uses (make base).1 [.record true, .run false true, .retrieve]).2 := by
  intro h
  simp [uses, use, recordPass, exec, step, make, Valid, Dev.after, Dev.Allows] at h

end Verif.Timer
