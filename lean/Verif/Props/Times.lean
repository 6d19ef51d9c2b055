import Verif.Spec.Times
import Mathlib.Algebra.Order.Field.Basic
/-
C86: GPU times; C87: CPU times.
-/
namespace Verif.Times
open Verif.Timer

theorem set_same {α : Type} (f : Nat → α) (i : Nat) (a : α) : set f i a i = a := if_pos rfl
theorem set_other {α : Type} (f : Nat → α) {i j : Nat} (a : α) (h : j ≠ i) : set f i a j = f j := if_neg h

variable {fl : ℚ → ℚ} {periods : Nat → ℚ}

theorem exec_append (P : Proc) (a b : List Call) : exec fl periods P (a ++ b) = exec fl periods (exec fl periods P a) b :=
  List.foldl_append

/-- Calls about other timers change nothing of timer `i`. -/
theorem step_other (P : Proc) (c : Call) (i : Nat) (h : c.timer ≠ i) :
    (step fl periods P c).queries i = P.queries i ∧ (step fl periods P c).clocks i = P.clocks i
    ∧ (step fl periods P c).pool i = P.pool i := by
  cases c <;> simp only [Call.timer] at h <;> simp only [step, set_other _ _ (Ne.symm h)] <;> exact ⟨trivial, trivial, trivial⟩

theorem exec_other (cs : List Call) : ∀ (P : Proc) (i : Nat), (∀ c ∈ cs, c.timer ≠ i) →
    (exec fl periods P cs).queries i = P.queries i ∧ (exec fl periods P cs).clocks i = P.clocks i
    ∧ (exec fl periods P cs).pool i = P.pool i := by
  induction cs with
  | nil => intro P i _; exact ⟨rfl, rfl, rfl⟩
  | cons c cs ih =>
    intro P i h
    obtain ⟨a1, a2, a3⟩ := ih (step fl periods P c) i fun d hd => h d (List.mem_cons_of_mem _ hd)
    obtain ⟨b1, b2, b3⟩ := step_other (fl := fl) (periods := periods) P c i (h c List.mem_cons_self)
    exact ⟨a1.trans b1, a2.trans b2, a3.trans b3⟩

/-- The period used is that of the device of the first timer read. -/
theorem exec_period (cs : List Call) : ∀ (P : Proc),
    (exec fl periods P cs).period = (match P.period with | some p => some p | none => (firstRetriever cs).map periods) := by
  induction cs with
  | nil => intro P; cases h : P.period <;> simp [exec, firstRetriever, h]
  | cons c cs ih =>
    intro P
    rw [show exec fl periods P (c :: cs) = exec fl periods (step fl periods P c) cs from rfl, ih]
    cases c with
    | retrieve i a b => cases h : P.period <;> simp [step, h, firstRetriever]
    | _ => cases h : P.period <;> simp [step, h, firstRetriever]

theorem retrieve_gpu (Q : Proc) (i a b : Nat) : ((step fl periods Q (.retrieve i a b)).clocks i).gpu =
    if (Q.queries i).front.started && (Q.queries i).front.written then
      nanoseconds fl (Q.period.getD (periods i)) (Q.pool i (Q.queries i).front.offset) (Q.pool i ((Q.queries i).front.offset + 1))
    else 0 := by
  simp only [step, set_same, Nat.zero_add]

/-- After a run with the pass enabled, both timestamps are in the pool and the queries are to be read. -/
theorem run_written (P : Proc) (i t0 t1 : Nat) :
    let Q := step fl periods P (.run i true t0 t1)
    (Q.queries i).front.started = true ∧ (Q.queries i).front.written = true
    ∧ Q.pool i (Q.queries i).front.offset = t0 ∧ Q.pool i ((Q.queries i).front.offset + 1) = t1 := by
  simp [step, set_same, recordPass, Timer.exec, Timer.step, writes, set]

/-- C86: what is reported after a run in which the pass was enabled, whatever was done before and whatever is done with other
timers in between: the ticks between the timestamps of that run, divided by the period of the device of the first timer of the
process whose time was retrieved. -/
theorem gpu_time_reported (pool : Nat → Nat → Nat) (before between : List Call) (i t0 t1 a b : Nat)
    (h : ∀ c ∈ between, c.timer ≠ i) :
    ((exec fl periods (Proc.start pool) (before ++ .run i true t0 t1 :: (between ++ [.retrieve i a b]))).clocks i).gpu
    = nanoseconds fl (((firstRetriever (before ++ between)).map periods).getD (periods i)) t0 t1 := by
  rw [exec_append]
  generalize hP : exec fl periods (Proc.start pool) before = P
  rw [show exec fl periods P (.run i true t0 t1 :: (between ++ [.retrieve i a b]))
    = exec fl periods (step fl periods P (.run i true t0 t1)) (between ++ [.retrieve i a b]) from rfl, exec_append]
  obtain ⟨h1, h2, h3, h4⟩ := run_written (fl := fl) (periods := periods) P i t0 t1
  obtain ⟨g1, _, g3⟩ := exec_other (fl := fl) (periods := periods) between (step fl periods P (.run i true t0 t1)) i h
  have hper : (exec fl periods (step fl periods P (.run i true t0 t1)) between).period
      = (firstRetriever (before ++ between)).map periods := by
    rw [exec_period, show (step fl periods P (.run i true t0 t1)).period = P.period from rfl, ← hP, exec_period]
    simp only [Proc.start, firstRetriever, List.findSome?_append]
    generalize List.findSome? _ before = o
    cases o <;> simp
  show ((step fl periods _ (.retrieve i a b)).clocks i).gpu = _
  rw [retrieve_gpu, g1, g3, h1, h2, h3, h4, hper]
  rfl

theorem nanoseconds_eq {p : ℚ} {t0 t1 : Nat} (h : t0 ≤ t1) (h' : t1 < 2 ^ 64) :
    nanoseconds fl p t0 t1 = ⌊fl (fl ((t1 - t0 : Nat) : ℚ) / p)⌋₊ := by
  unfold nanoseconds
  have : (t1 + 2 ^ 64 - t0) % 2 ^ 64 = t1 - t0 := by omega
  rw [this]

/-- C86 holds of devices whose tick is a nanosecond, and of at most 2^24 ticks. -/
theorem gpu_time_exact_partial (hf : Single fl) (pool : Nat → Nat → Nat) (before between : List Call) (i t0 t1 a b : Nat)
    (h : ∀ c ∈ between, c.timer ≠ i) (hp : ∀ j, periods j = 1) (ht : t0 ≤ t1) (ht' : t1 < 2 ^ 64) (hd : t1 - t0 ≤ 2 ^ 24) :
    ((exec fl periods (Proc.start pool) (before ++ .run i true t0 t1 :: (between ++ [.retrieve i a b]))).clocks i).gpu
    = t1 - t0 := by
  rw [gpu_time_reported pool before between i t0 t1 a b h, nanoseconds_eq ht ht']
  have : ((firstRetriever (before ++ between)).map periods).getD (periods i) = 1 := by
    cases firstRetriever (before ++ between) with
    | none => exact hp i
    | some j => exact hp j
  rw [this, hf.exact _ hd, div_one, hf.exact _ hd, Nat.floor_natCast]

/-- C86 fails on every device whose tick isn't a nanosecond, for every run that takes time: what is reported is less than the
time it took if ticks are longer, and more if they are shorter. -/
theorem gpu_time_wrong (hf : Single fl) {p : ℚ} (hp : 0 < p) {t0 t1 : Nat} (ht : t0 < t1) (ht' : t1 < 2 ^ 64)
    (hd : t1 - t0 ≤ 2 ^ 24) :
    (1 < p → (nanoseconds fl p t0 t1 : ℚ) < ((t1 - t0 : Nat) : ℚ) * p)
    ∧ (p < 1 → ((t1 - t0 : Nat) : ℚ) * p < (nanoseconds fl p t0 t1 : ℚ)) := by
  rw [nanoseconds_eq (Nat.le_of_lt ht) ht', hf.exact _ hd]
  have pos : (0 : ℚ) < ((t1 - t0 : Nat) : ℚ) := by exact_mod_cast Nat.sub_pos_of_lt ht
  constructor
  · intro h
    have h1 : ((t1 - t0 : Nat) : ℚ) / p ≤ ((t1 - t0 : Nat) : ℚ) := div_le_self (le_of_lt pos) (le_of_lt h)
    have h2 := hf.mono _ _ h1
    rw [hf.exact _ hd] at h2
    have h3 : (0 : ℚ) ≤ fl (((t1 - t0 : Nat) : ℚ) / p) := by
      have := hf.mono 0 (((t1 - t0 : Nat) : ℚ) / p) (le_of_lt (div_pos pos hp))
      have e0 : fl 0 = 0 := by simpa using hf.exact 0 (Nat.zero_le _)
      rwa [e0] at this
    calc (⌊fl (((t1 - t0 : Nat) : ℚ) / p)⌋₊ : ℚ) ≤ fl (((t1 - t0 : Nat) : ℚ) / p) := Nat.floor_le h3
      _ ≤ ((t1 - t0 : Nat) : ℚ) := h2
      _ < ((t1 - t0 : Nat) : ℚ) * p := lt_mul_of_one_lt_right pos h
  · intro h
    have h1 : ((t1 - t0 : Nat) : ℚ) ≤ ((t1 - t0 : Nat) : ℚ) / p := le_div_self (le_of_lt pos) hp (le_of_lt h)
    have h2 := hf.mono _ _ h1
    rw [hf.exact _ hd] at h2
    have h4 : t1 - t0 ≤ ⌊fl (((t1 - t0 : Nat) : ℚ) / p)⌋₊ := Nat.le_floor h2
    calc ((t1 - t0 : Nat) : ℚ) * p < ((t1 - t0 : Nat) : ℚ) := mul_lt_of_lt_one_right pos h
      _ ≤ _ := by exact_mod_cast h4

/-- Even with ticks of a nanosecond, times above 2^24 are rounded: 2^24 + 1 nanoseconds are reported as 2^24. -/
theorem gpu_time_rounded (hf : Single fl) (t0 : Nat) (h : t0 + 2 ^ 24 + 1 < 2 ^ 64) :
    nanoseconds fl 1 t0 (t0 + 2 ^ 24 + 1) = 2 ^ 24 := by
  rw [nanoseconds_eq (by omega) h, div_one, show t0 + 2 ^ 24 + 1 - t0 = 2 ^ 24 + 1 from by omega]
  have h1 : fl ((2 ^ 24 + 1 : Nat) : ℚ) = 2 ^ 24 := by rw [← hf.tie]; norm_num
  have h2 : fl (2 ^ 24 : ℚ) = 2 ^ 24 := by have := hf.exact (2 ^ 24) (Nat.le_refl _); push_cast at this; exact this
  rw [h1, h2]
  have : ((2 : ℚ) ^ 24) = ((2 ^ 24 : Nat) : ℚ) := by norm_num
  rw [this, Nat.floor_natCast]

/-- The period of another device is used: after a timer of a first device was read, what a timer of a second device reports
doesn't depend on the period of the second device. -/
theorem gpu_time_other_device (pool : Nat → Nat → Nat) (before between : List Call) (i j t0 t1 a b x y : Nat)
    (h : ∀ c ∈ between, c.timer ≠ i) :
    ((exec fl periods (Proc.start pool) ((.retrieve j x y :: before) ++ .run i true t0 t1 :: (between ++ [.retrieve i a b]))).clocks i).gpu
    = nanoseconds fl (periods j) t0 t1 := by
  rw [gpu_time_reported pool _ between i t0 t1 a b h]
  rfl

/-- Read again without a run in between, the time is 0. -/
theorem gpu_time_read_again (P : Proc) (i a b x y : Nat) (between : List Call) (h : ∀ c ∈ between, c.timer ≠ i) :
    ((exec fl periods P (.retrieve i a b :: (between ++ [.retrieve i x y]))).clocks i).gpu = 0 := by
  rw [show exec fl periods P (.retrieve i a b :: (between ++ [.retrieve i x y]))
    = exec fl periods (step fl periods P (.retrieve i a b)) (between ++ [.retrieve i x y]) from rfl, exec_append]
  obtain ⟨g1, _, _⟩ := exec_other (fl := fl) (periods := periods) between (step fl periods P (.retrieve i a b)) i h
  show ((step fl periods _ (.retrieve i x y)).clocks i).gpu = _
  rw [retrieve_gpu, g1]
  simp only [step, set_same]
  have : ((Timer.step (P.queries i) .retrieve).1.front.started && (Timer.step (P.queries i) .retrieve).1.front.written) = false := by
    simp only [Timer.step]
    split
    · rfl
    · rename_i h; simpa using h
  rw [this]
  rfl

/-- A rounding as in `Single`. -/
def sampleRounding (q : ℚ) : ℚ := if q ≤ 2 ^ 24 then q else if q ≤ 2 ^ 24 + 1 then 2 ^ 24 else q

theorem sampleRounding_single : Single sampleRounding := by
  refine ⟨fun x y h => ?_, fun n h => ?_, ?_⟩
  · unfold sampleRounding
    split <;> split <;> (try split) <;> (try split) <;> linarith
  · have : (n : ℚ) ≤ 2 ^ 24 := by exact_mod_cast h
    exact if_pos this
  · unfold sampleRounding
    norm_num

/-- A run of 1000 ticks of 10 ns: 10000 ns, reported as 100. -/
example : nanoseconds sampleRounding 10 500 1500 = 100 := by
  unfold nanoseconds sampleRounding
  norm_num

/-! ### CPU times -/

theorem step_quiet (P : Proc) (c : Call) (i : Nat) (hc : c.timer = i → ∀ j x y, c ≠ .retrieve j x y ∧ c ≠ .start j x
    ∧ c ≠ .stop j x ∧ c ≠ .reset j) : (step fl periods P c).clocks i = P.clocks i := by
  by_cases h : c.timer = i
  · have hc := hc h
    cases c with
    | run => rfl
    | record => rfl
    | retrieve k x y => exact absurd rfl (hc k x y).1
    | reset k => exact absurd rfl (hc k 0 0).2.2.2
    | start k x => exact absurd rfl (hc k x 0).2.1
    | stop k x => exact absurd rfl (hc k x 0).2.2.1
  · exact (step_other P c i h).2.1

theorem exec_quiet (cs : List Call) : ∀ (P : Proc) (i : Nat), (∀ c ∈ cs, c.timer = i → ∀ j x y, c ≠ .retrieve j x y
    ∧ c ≠ .start j x ∧ c ≠ .stop j x ∧ c ≠ .reset j) → (exec fl periods P cs).clocks i = P.clocks i := by
  induction cs with
  | nil => intro P i _; rfl
  | cons c cs ih =>
    intro P i h
    exact (ih (step fl periods P c) i fun d hd => h d (List.mem_cons_of_mem _ hd)).trans (step_quiet P c i (h c List.mem_cons_self))

/-- C87: the CPU time grows by what is spent in the blocks of the timer and in its `retrieveGpuTime`. -/
theorem cpu_time_grows {i n : Nat} {cs : List Call} (h : Spent i cs n) :
    ∀ P : Proc, ((exec fl periods P cs).clocks i).cpu = (P.clocks i).cpu + n := by
  induction h with
  | nil => intro P; rfl
  | block a b inner rest n hi _ ih =>
    intro P
    rw [show exec fl periods P (.start i a :: (inner ++ .stop i b :: rest))
      = exec fl periods (step fl periods P (.start i a)) (inner ++ .stop i b :: rest) from rfl, exec_append]
    rw [show ∀ Q, exec fl periods Q (.stop i b :: rest) = exec fl periods (step fl periods Q (.stop i b)) rest from fun _ => rfl, ih]
    have := exec_quiet (fl := fl) (periods := periods) inner (step fl periods P (.start i a)) i hi
    simp only [step, set_same] at this ⊢
    rw [this]
    simp only
    omega
  | retrieve a b rest n _ ih =>
    intro P
    rw [show exec fl periods P (.retrieve i a b :: rest) = exec fl periods (step fl periods P (.retrieve i a b)) rest from rfl, ih]
    simp only [step, set_same]
    omega
  | other c rest n hc _ ih =>
    intro P
    rw [show exec fl periods P (c :: rest) = exec fl periods (step fl periods P c) rest from rfl, ih, step_quiet P c i hc]

/-- C87: since the timer was made, or since `reset` after anything: the CPU time is what was spent. -/
theorem cpu_time_spent_partial (pool : Nat → Nat → Nat) {i n : Nat} {cs : List Call} (h : Spent i cs n) (before : List Call) :
    ((exec fl periods (Proc.start pool) cs).clocks i).cpu = n
    ∧ ((exec fl periods (Proc.start pool) (before ++ .reset i :: cs)).clocks i).cpu = n := by
  constructor
  · rw [cpu_time_grows h]
    exact Nat.zero_add n
  · rw [exec_append, show ∀ P, exec fl periods P (.reset i :: cs) = exec fl periods (step fl periods P (.reset i)) cs from fun _ => rfl,
      cpu_time_grows h]
    simp only [step, set_same]
    omega

/-- Two blocks, a run and a retrieval in between. -/
example : Spent 1 [.start 1 10, .run 1 true 0 5, .stop 1 25, .retrieve 1 30 32, .start 2 33, .start 1 40, .stop 1 41] 18 :=
  .block 10 25 [.run 1 true 0 5] _ 3 (by simp) (.retrieve 30 32 _ 1 (.other _ _ _ (by simp [Call.timer]) (.block 40 41 [] _ 0 (by simp) .nil)))

/-- With nested blocks of a timer (a pass recorded again by its own callback) the outer one is counted from the start of the
inner one: 10 ns with a block of 4 ns inside that starts after 3 ns are counted as 11. -/
theorem nested_blocks_miscounted (pool : Nat → Nat → Nat) (i t : Nat) :
    ((exec fl periods (Proc.start pool) [.start i t, .start i (t + 3), .stop i (t + 7), .stop i (t + 10)]).clocks i).cpu = 11 := by
  simp only [exec, List.foldl, step, set_same, Proc.start]
  omega

/-! ### Blocks are stopped once -/

/-- Blocks of timer `i` not moved from. -/
def holders (i : Nat) (s : Blocks) : Nat := s.countP fun x => x.2 == some i

theorem put_of_not_mem {s : Blocks} {b : Nat} (h : b ∉ s.map (·.1)) (t : Option Nat) : s.put b t = s := by
  unfold Blocks.put
  conv => rhs; rw [← List.map_id s]
  refine List.map_congr_left fun x hx => ?_
  have : x.1 ≠ b := fun e => h (e ▸ List.mem_map_of_mem hx)
  simp [this]

theorem filter_of_not_mem {s : Blocks} {b : Nat} (h : b ∉ s.map (·.1)) : (s.filter fun x => x.1 != b) = s := by
  refine List.filter_eq_self.2 fun x hx => ?_
  have : x.1 ≠ b := fun e => h (e ▸ List.mem_map_of_mem hx)
  simp [this]

/-- Counting the blocks of a timer when one block is taken away or moved from. -/
theorem holders_split (i b : Nat) : ∀ (s : Blocks), (s.map (·.1)).Nodup → b ∈ s.map (·.1) →
    holders i s = (if s.timer b = some i then 1 else 0) + holders i (s.filter fun x => x.1 != b)
    ∧ holders i s = (if s.timer b = some i then 1 else 0) + holders i (s.put b none) := by
  intro s
  induction s with
  | nil => intro _ h; simp at h
  | cons x s ih =>
    intro hn hb
    rw [List.map_cons, List.nodup_cons] at hn
    by_cases hx : x.1 = b
    · have hnb : b ∉ s.map (·.1) := hx ▸ hn.1
      have ht : Blocks.timer (x :: s) b = x.2 := by simp [Blocks.timer, hx]
      have hf : (List.filter (fun x => x.1 != b) (x :: s)) = s := by
        rw [List.filter_cons_of_neg (by simp [hx]), filter_of_not_mem hnb]
      have hp : Blocks.put (x :: s) b none = (b, none) :: s := by
        have := put_of_not_mem hnb none
        unfold Blocks.put at this ⊢
        rw [List.map_cons, this]
        simp [hx]
      rw [ht, hf, hp]
      unfold holders
      rw [List.countP_cons, List.countP_cons]
      cases h : x.2 == some i <;> simp_all <;> omega
    · have hb' : b ∈ s.map (·.1) := by
        rw [List.map_cons, List.mem_cons] at hb
        rcases hb with e | e
        · exact absurd e.symm hx
        · exact e
      obtain ⟨h1, h2⟩ := ih hn.2 hb'
      have ht : Blocks.timer (x :: s) b = Blocks.timer s b := by simp [Blocks.timer, hx]
      have hf : (List.filter (fun x => x.1 != b) (x :: s)) = x :: List.filter (fun x => x.1 != b) s := by
        rw [List.filter_cons_of_pos (by simp [hx])]
      have hp : Blocks.put (x :: s) b none = x :: Blocks.put s b none := by
        unfold Blocks.put
        rw [List.map_cons]
        simp [hx]
      rw [ht, hf, hp]
      unfold holders at h1 h2 ⊢
      rw [List.countP_cons, List.countP_cons, List.countP_cons]
      omega

theorem put_keys (s : Blocks) (b : Nat) (t : Option Nat) : (s.put b t).map (·.1) = s.map (·.1) := by
  unfold Blocks.put
  rw [List.map_map]
  refine List.map_congr_left fun x _ => ?_
  simp only [Function.comp]
  split
  · rename_i h; simpa using (beq_iff_eq.1 h).symm
  · rfl

theorem filter_keys (s : Blocks) (b : Nat) : (s.filter fun x => x.1 != b).map (·.1) = (s.map (·.1)).filter fun x => x != b := by
  rw [List.filter_map]
  rfl

theorem balance (i : Nat) : ∀ (os : List BlockOp) (s : Blocks), (s.map (·.1)).Nodup → Proper (s.map (·.1)) os →
    stops i (blockCalls s os).2 = holders i s + starts i (blockCalls s os).2 := by
  intro os
  induction os with
  | nil =>
    intro s _ h
    have : s = [] := by simpa [Proper] using h
    subst this
    rfl
  | cons o os ih =>
    intro s hn h
    have app : ∀ a b, stops i (a ++ b) = stops i a + stops i b := fun a b => by simp [stops]
    have app' : ∀ a b, starts i (a ++ b) = starts i a + starts i b := fun a b => by simp [starts]
    show stops i ((blockStep s o).2 ++ (blockCalls (blockStep s o).1 os).2) = holders i s
      + starts i ((blockStep s o).2 ++ (blockCalls (blockStep s o).1 os).2)
    rw [app, app']
    cases o with
    | start b k now =>
      obtain ⟨hb, h⟩ := h
      have := ih ((b, some k) :: s) (List.nodup_cons.2 ⟨hb, hn⟩) h
      simp only [blockStep]
      rw [this]
      have e1 : stops i [Call.start k now] = 0 := rfl
      have e2 : starts i [Call.start k now] = if k = i then 1 else 0 := by simp [starts, List.countP_cons]
      have e3 : holders i ((b, some k) :: s) = (if k = i then 1 else 0) + holders i s := by
        unfold holders
        rw [List.countP_cons]
        by_cases hk : k = i <;> simp [hk] <;> omega
      omega
    | move a b =>
      obtain ⟨ha, hb, h⟩ := h
      have := ih ((b, s.timer a) :: s.put a none) (by rw [List.map_cons, put_keys]; exact List.nodup_cons.2 ⟨hb, hn⟩)
        (by rw [List.map_cons, put_keys]; exact h)
      simp only [blockStep]
      rw [this]
      have e1 : stops i [] = 0 := rfl
      have e2 : starts i [] = 0 := rfl
      have e3 : holders i ((b, s.timer a) :: s.put a none) = (if s.timer a = some i then 1 else 0) + holders i (s.put a none) := by
        unfold holders
        rw [List.countP_cons]
        by_cases hk : s.timer a = some i <;> simp [hk] <;> omega
      have := (holders_split i a s hn ha).2
      omega
    | destroy b now =>
      obtain ⟨hb, h⟩ := h
      have := ih (s.filter fun x => x.1 != b) (by rw [filter_keys]; exact hn.filter _) (by rw [filter_keys]; exact h)
      have e1 : stops i (blockStep s (.destroy b now)).2 = if s.timer b = some i then 1 else 0 := by
        simp only [blockStep]
        generalize s.timer b = o
        cases o with
        | none => rfl
        | some k => simp [stops, List.countP_cons]
      have e2 : starts i (blockStep s (.destroy b now)).2 = 0 := by
        simp only [blockStep]
        generalize s.timer b = o
        cases o <;> rfl
      rw [e1, e2, show (blockStep s (.destroy b now)).1 = s.filter fun x => x.1 != b from rfl, this]
      have := (holders_split i b s hn hb).1
      omega

/-- C87: however the blocks are moved around, in the end each `start` was stopped once. -/
theorem blocks_stopped_once {os : List BlockOp} (h : Proper [] os) (i : Nat) :
    stops i (blockCalls [] os).2 = starts i (blockCalls [] os).2 := by
  rw [balance i os [] List.nodup_nil h]
  exact Nat.zero_add _

/-- A block moved twice. -/
example : Proper [] [.start 0 7 10, .move 0 1, .destroy 0 11, .move 1 2, .destroy 2 20, .destroy 1 21] := by simp [Proper]
example : (blockCalls [] [.start 0 7 10, .move 0 1, .destroy 0 11, .move 1 2, .destroy 2 20, .destroy 1 21]).2
    = [.start 7 10, .stop 7 20] := by decide

end Verif.Times
