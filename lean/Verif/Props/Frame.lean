import Verif.Props.Announce
import Verif.Props.Attachment
/-
C16, C32, C41, C44, C48, C49: buffers between passes, submission, clears, initialisation, memory across executions.
-/
namespace Verif.Run
open Verif.Rec Verif.Att Verif.Gpu

/-! ### C41 -/

/-- C41. The aligned size is the least multiple of the alignment which is not below the size. -/
theorem aligned_size_least (size align : Nat) (ha : 0 < align) :
    align ∣ getAlignedSize size align ∧ size ≤ getAlignedSize size align
    ∧ ∀ n, align ∣ n → size ≤ n → getAlignedSize size align ≤ n := by
  have hlt := Nat.mod_lt size ha
  have hdm := Nat.div_add_mod size align
  unfold getAlignedSize
  simp only
  split
  · rename_i h
    have e : size + (align - size % align) = align * (size / align + 1) := by
      rw [Nat.mul_add, Nat.mul_one]; omega
    refine ⟨⟨size / align + 1, e⟩, by omega, ?_⟩
    rintro n ⟨k, rfl⟩ hn
    rw [e]
    apply Nat.mul_le_mul_left
    apply Nat.succ_le_of_lt
    rw [Nat.div_lt_iff_lt_mul ha]
    have hne : size ≠ align * k := by
      intro he; rw [he, Nat.mul_mod_right] at h; exact h rfl
    rw [Nat.mul_comm]
    omega
  · rename_i h
    refine ⟨Nat.dvd_of_mod_eq_zero (by omega), Nat.le_refl _, fun n _ hn => hn⟩

example : getAlignedSize 5 4 = 8 ∧ getAlignedSize 8 4 = 8 := by decide

/-- `details::getAlignedSize` on `VkDeviceSize` (`uint64_t`), RunnablePass.cpp:22-28. -/
def getAlignedSize64 (size align : UInt64) : UInt64 :=
  let rem := size % align
  if rem ≠ 0 then size + (align - rem) else size

/-- C41 on machine words: the 64-bit computation is the mathematical one unless the sum overflows. -/
theorem aligned_size_word (size align : UInt64) (ha : align ≠ 0)
    (h : getAlignedSize size.toNat align.toNat < 2 ^ 64) :
    (getAlignedSize64 size align).toNat = getAlignedSize size.toNat align.toNat := by
  have ha' : 0 < align.toNat := by
    rcases Nat.eq_zero_or_pos align.toNat with e | e
    · exact absurd (UInt64.toNat_inj.1 (by simpa using e)) ha
    · exact e
  have hlt := Nat.mod_lt size.toNat ha'
  have hm : (size % align).toNat = size.toNat % align.toNat := by simp
  have hz : size % align ≠ 0 ↔ size.toNat % align.toNat ≠ 0 := by
    rw [← hm]
    constructor
    · intro hx he; exact hx (UInt64.toNat_inj.1 (by simpa using he))
    · intro hx he; exact hx (by rw [he]; rfl)
  unfold getAlignedSize64 getAlignedSize at *
  simp only at *
  by_cases hx : size % align ≠ 0
  · rw [if_pos hx, if_pos (hz.1 hx)]
    rw [if_pos (hz.1 hx)] at h
    rw [UInt64.toNat_add, UInt64.toNat_sub_of_le _ _ (by
      rw [UInt64.le_iff_toNat_le, hm]; omega), hm]
    exact Nat.mod_eq_of_lt h
  · rw [if_neg hx, if_neg (fun hn => hx (hz.2 hn))]

/-- C41 fails on machine words at the end of the address space: the sum wraps round to zero. -/
theorem aligned_size_wraps : (getAlignedSize64 18446744073709551614 4) = 0 := by decide

/-! ### C49 -/

/-- Byte `x` lies in the range declared by offset and size (to the end when the size is `VK_WHOLE_SIZE`, that is `~0ULL`). -/
def InBytes (offset size x : Nat) : Prop := offset ≤ x ∧ (size = 2 ^ 64 - 1 ∨ x < offset + size)

theorem bufferBarrier_prefix (r : Rec) (b o s : Nat) (i w : AccessState) (f : Bool) :
    r.cmds <+: (r.bufferBarrier b o s i w f).cmds := by
  unfold Rec.bufferBarrier
  simp only
  repeat' split
  all_goals first | exact List.prefix_append _ _ | exact List.prefix_refl _

/-- Buffers whose uses are followed: storage, transfer and implicit ones, not excluded from transitions. -/
def Followed (a : Attachment) : Prop :=
  a.isNoTransition = false ∧ (a.isStorageBuffer = true ∨ a.isTransferBuffer = true ∨ a.isTransitionBuffer = true)

instance (a : Attachment) : Decidable (Followed a) := by unfold Followed; infer_instance

theorem guarded_iff (a : Attachment) : guarded a = true ↔ Followed a := by
  simp [guarded, Followed, or_assoc]

/-- Every buffer a pass declares with an `add…` method is followed, except uniform ones. -/
theorem followed_adders (m : BufferAdder) (p b : Nat) (bs : List Nat) (v o n : Nat)
    (hm : m ≠ .uniform ∧ m ≠ .uniformView ∧ ∀ f, m ≠ .transferInOut f) : Followed (m.attach p b bs v o n) := by
  obtain ⟨h1, h2, h3⟩ := hm
  cases m <;> first | exact absurd rfl h1 | exact absurd rfl h2 | exact absurd rfl (h3 _) | simp (config := { decide := true }) [Followed, BufferAdder.attach, mkBuffer, Attachment.isNoTransition,
    Attachment.isStorageBuffer, Attachment.isTransferBuffer, Attachment.isTransitionBuffer, Attachment.isBuffer, BufAttach.isStorage, BufAttach.isTransfer, BufAttach.isTransition]

/-- The fill recorded for a clearable buffer attachment (RunnablePass.cpp:458-462), as found in the recording. -/
theorem clear_records_fill (compute : Bool) (index : Nat) (r r' : Rec) (a : Attachment) (b : Nat)
    (hg : Followed a) (hc : a.isClearableBuffer = true) (hb : a.buf.buffer index = some b)
    (h : recordBuffer compute index r a = some r') :
    ∃ o n, Cmd.fillBuffer b o n ∈ r'.cmds ∧ o % 4 = 0 ∧ (n = 2 ^ 64 - 1 ∨ n % 4 = 0)
      ∧ o = (if a.buf.offset = 0 then 0 else getAlignedSize a.buf.offset 4)
      ∧ n = (if a.buf.size = 2 ^ 64 - 1 then 2 ^ 64 - 1 else getAlignedSize a.buf.size 4) := by
  unfold recordBuffer at h
  rw [if_pos ((guarded_iff a).2 hg), hb] at h
  simp only [hc, if_true, Option.some.injEq] at h
  subst h
  refine ⟨_, _, ?_, ?_, ?_, rfl, rfl⟩
  · exact (bufferBarrier_prefix _ _ _ _ _ _ _).subset (List.mem_append_right _ (List.mem_singleton.2 rfl))
  · split
    · rfl
    · exact Nat.mod_eq_zero_of_dvd (aligned_size_least _ 4 (by decide)).1
  · split
    · exact Or.inl rfl
    · exact Or.inr (Nat.mod_eq_zero_of_dvd (aligned_size_least _ 4 (by decide)).1)

/-- C49 (partial: offsets that are multiples of 4, see `clear_misses_bytes`). Clearing a buffer attachment fills
every byte it declares. -/
theorem clear_covers_partial (compute : Bool) (index : Nat) (r r' : Rec) (a : Attachment) (b : Nat)
    (hg : Followed a) (hc : a.isClearableBuffer = true) (hb : a.buf.buffer index = some b)
    (h4 : a.buf.offset % 4 = 0) (h : recordBuffer compute index r a = some r') :
    ∃ o n, Cmd.fillBuffer b o n ∈ r'.cmds
      ∧ ∀ x, InBytes a.buf.offset a.buf.size x → InBytes o n x := by
  obtain ⟨o, n, h1, _, _, h2, h3⟩ := clear_records_fill compute index r r' a b hg hc hb h
  refine ⟨o, n, h1, ?_⟩
  have ho : o = a.buf.offset := by
    rw [h2]
    unfold getAlignedSize
    simp only [h4]
    split <;> simp_all
  rintro x ⟨hx1, hx2⟩
  refine ⟨by omega, ?_⟩
  by_cases hs : a.buf.size = 2 ^ 64 - 1
  · left; rw [h3, if_pos hs]
  · right
    rw [h3, if_neg hs, ho]
    have := (aligned_size_least a.buf.size 4 (by decide)).2.1
    rcases hx2 with hx2 | hx2
    · exact absurd hx2 hs
    · omega

/-- A clearable storage buffer range starting at byte 2. -/
def wAttach : Attachment := BufferAdder.clearableOutputStorage.attach 1 0 [7] 0 2 6

/-- C49 is false of other offsets: byte 2 of the declared range [2, 8) is not cleared, and byte 8, outside the
range, is. -/
theorem clear_misses_bytes : ∃ r', recordBuffer true 0 ⟨Ctx.new, []⟩ wAttach = some r'
    ∧ InBytes wAttach.buf.offset wAttach.buf.size 2 ∧ ¬ InBytes wAttach.buf.offset wAttach.buf.size 8
    ∧ (∀ o n, Cmd.fillBuffer 7 o n ∈ r'.cmds → ¬ InBytes o n 2 ∧ InBytes o n 8) := by
  have h : (recordBuffer true 0 ⟨Ctx.new, []⟩ wAttach).map (·.cmds) = some
      [.bufferBarrier 7 2 6 bottom ⟨Access.transferWrite, Stage.transfer⟩, .fillBuffer 7 4 8,
        .bufferBarrier 7 2 6 ⟨Access.transferWrite, Stage.transfer⟩ ⟨Access.shaderWrite, Stage.computeShader⟩] := by
    decide
  rw [Option.map_eq_some_iff] at h
  obtain ⟨r', h1, h2⟩ := h
  refine ⟨r', h1, ⟨by decide, by decide⟩, ?_, ?_⟩
  · rintro ⟨_, h | h⟩ <;> revert h <;> decide
  · intro o n hm
    rw [h2] at hm
    simp at hm
    obtain ⟨rfl, rfl⟩ := hm
    refine ⟨?_, ⟨by decide, by decide⟩⟩
    rintro ⟨h, _⟩
    revert h; decide

example : ∃ r', recordBuffer true 0 ⟨Ctx.new, []⟩ { wAttach with buf := { wAttach.buf with offset := 4 } } = some r' := by
  refine Option.isSome_iff_exists.1 ?_
  decide

/-! ### C32 -/

/-- C32. The lists handed to the queue have equal lengths, no semaphore twice, none null; a pair is in them iff
it is the first occurrence of a non-null semaphore; and they are in the order given. -/
theorem convert_spec (ws : List Wait) :
    (convert ws).1.length = (convert ws).2.length ∧ (convert ws).1.Nodup
    ∧ (∀ s t, (s, t) ∈ (convert ws).1.zip (convert ws).2 ↔
        ∃ a b, ws = a ++ ⟨s, t⟩ :: b ∧ s ≠ 0 ∧ s ∉ a.map (·.semaphore))
    ∧ ((convert ws).1.zip (convert ws).2).Sublist (ws.map fun w => (w.semaphore, w.stage))
    ∧ (∀ s, s ∈ (convert ws).1 ↔ s ≠ 0 ∧ s ∈ ws.map (·.semaphore)) := by
  have step : ∀ (ws : List Wait) (w : Wait), convert (ws ++ [w])
      = if w.semaphore ≠ 0 ∧ w.semaphore ∉ (convert ws).1
        then ((convert ws).1 ++ [w.semaphore], (convert ws).2 ++ [w.stage]) else convert ws := by
    intro ws w
    unfold convert
    rw [List.foldl_append]
    rfl
  induction ws using snocInduction with
  | nil => refine ⟨rfl, List.nodup_nil, ?_, ?_, ?_⟩ <;> simp [convert]
  | snoc ws w ih =>
    obtain ⟨h1, h2, h3, h4, h5⟩ := ih
    rw [step]
    have hsplit : ∀ s t, (∃ a b, ws ++ [w] = a ++ ⟨s, t⟩ :: b ∧ s ≠ 0 ∧ s ∉ a.map (·.semaphore)) ↔
        (∃ a b, ws = a ++ ⟨s, t⟩ :: b ∧ s ≠ 0 ∧ s ∉ a.map (·.semaphore))
          ∨ (w = ⟨s, t⟩ ∧ s ≠ 0 ∧ s ∉ ws.map (·.semaphore)) := by
      intro s t
      constructor
      · rintro ⟨a, b, e, h⟩
        rcases List.eq_nil_or_concat b with rfl | ⟨b', x, rfl⟩
        · have := List.append_inj' e rfl
          obtain ⟨rfl, e2⟩ := this
          simp only [List.cons.injEq, and_true] at e2
          exact Or.inr ⟨e2, h⟩
        · left
          rw [List.concat_eq_append, ← List.cons_append, ← List.append_assoc] at e
          exact ⟨a, b', (List.append_inj' e rfl).1, h⟩
      · rintro (⟨a, b, rfl, h⟩ | ⟨rfl, h⟩)
        · exact ⟨a, b ++ [w], by simp, h⟩
        · exact ⟨ws, [], rfl, h⟩
    by_cases hc : w.semaphore ≠ 0 ∧ w.semaphore ∉ (convert ws).1
    · rw [if_pos hc]
      have hnew : w.semaphore ∉ ws.map (·.semaphore) := fun hx => hc.2 ((h5 _).2 ⟨hc.1, hx⟩)
      refine ⟨by simp [h1], ?_, ?_, ?_, ?_⟩
      · rw [List.nodup_append]
        refine ⟨h2, by simp, ?_⟩
        intro a ha b hb
        simp only [List.mem_singleton] at hb
        subst hb
        rintro rfl
        exact hc.2 ha
      · intro s t
        rw [List.zip_append h1, List.mem_append, h3, hsplit]
        simp only [List.zip_cons_cons, List.zip_nil_right, List.mem_singleton, Prod.mk.injEq]
        constructor
        · rintro (h | ⟨rfl, rfl⟩)
          · exact Or.inl h
          · exact Or.inr ⟨rfl, hc.1, hnew⟩
        · rintro (h | ⟨rfl, h⟩)
          · exact Or.inl h
          · exact Or.inr ⟨rfl, rfl⟩
      · rw [List.zip_append h1, List.map_append]
        exact h4.append (List.Sublist.refl _)
      · intro s
        simp only [List.mem_append, List.mem_singleton, h5, List.map_append, List.map_cons, List.map_nil]
        constructor
        · rintro (⟨h, h'⟩ | rfl)
          · exact ⟨h, Or.inl h'⟩
          · exact ⟨hc.1, Or.inr rfl⟩
        · rintro ⟨h, h' | h'⟩
          · exact Or.inl ⟨h, h'⟩
          · exact Or.inr h'
    · rw [if_neg hc]
      have hold : w.semaphore = 0 ∨ w.semaphore ∈ ws.map (·.semaphore) := by
        by_cases h0 : w.semaphore = 0
        · exact Or.inl h0
        · refine Or.inr ((h5 _).1 ?_).2
          exact Decidable.byContradiction fun hx => hc ⟨h0, hx⟩
      refine ⟨h1, h2, ?_, ?_, ?_⟩
      · intro s t
        rw [h3, hsplit]
        constructor
        · exact Or.inl
        · rintro (h | ⟨rfl, h, h'⟩)
          · exact h
          · rcases hold with hx | hx
            · exact absurd hx h
            · exact absurd hx h'
      · rw [List.map_append]
        exact h4.trans (List.sublist_append_left _ _)
      · intro s
        rw [h5, List.map_append, List.mem_append]
        simp only [List.map_cons, List.map_nil, List.mem_singleton]
        constructor
        · rintro ⟨h, h'⟩; exact ⟨h, Or.inl h'⟩
        · rintro ⟨h, h' | rfl⟩
          · exact ⟨h, h'⟩
          · rcases hold with hx | hx
            · exact absurd hx h
            · exact ⟨h, hx⟩

example : convert [⟨3, 1⟩, ⟨0, 2⟩, ⟨4, 3⟩, ⟨3, 4⟩] = ([3, 4], [1, 3]) := by decide

/-! ### C44 -/

/-- One recording: which passes are enabled, the device option, the graph's state, dependencies and indices. -/
structure Recording where
  env : Env
  G : GraphSt
  deps : List Ctx
  index : Nat → Nat

/-- The graph object is built, then recorded several times (whatever happens to the graph's state, enablement and
indices in between); the log of initialisations and runs is the result. -/
inductive Life (passes : List RunPass) : (Nat → Nat → Bool) → List Event → Prop
  | built (en : Nat → Bool) (index : Nat → Nat) :
      Life passes (construct en index passes).initialised (construct en index passes).log
  | recorded {ini log} (h : Life passes ini log) (x : Recording) {G' f}
      (e : record x.env x.G x.deps x.index passes ini log = some (G', f)) : Life passes f.initialised f.log

/-- Each (pass, index) is initialised at most once, and before every run. -/
def InitOnce (log : List Event) : Prop :=
  (∀ p i, log.count (.init p i) ≤ 1) ∧ ∀ a b p i, log = a ++ .run p i :: b → .init p i ∈ a

/-- Invariant of the log. -/
def LogOk (ini : Nat → Nat → Bool) (log : List Event) : Prop :=
  (∀ p i, ini p i = true ↔ .init p i ∈ log) ∧ InitOnce log

theorem logOk_init {ini : Nat → Nat → Bool} {log : List Event} (h : LogOk ini log) (p i : Nat) (hn : ini p i = false) :
    LogOk (fun q j => if q = p ∧ j = i then true else ini q j) (log ++ [.init p i]) := by
  obtain ⟨h1, h2, h3⟩ := h
  have hni : Event.init p i ∉ log := fun hx => by rw [(h1 p i).2 hx] at hn; simp at hn
  refine ⟨?_, ?_, ?_⟩
  · intro q j
    simp only [List.mem_append, List.mem_singleton, Event.init.injEq]
    split
    · rename_i hc; simp [hc]
    · rename_i hc; rw [h1]; simp [hc]
  · intro q j
    rw [List.count_append]
    by_cases hc : q = p ∧ j = i
    · obtain ⟨rfl, rfl⟩ := hc
      rw [List.count_eq_zero_of_not_mem hni]
      simp
    · have : Event.init q j ≠ Event.init p i := by simpa using fun a b => hc ⟨a, b⟩
      rw [List.count_eq_zero_of_not_mem (l := [Event.init p i]) (by simpa using this)]
      exact h2 q j
  · intro a b q j e
    rcases List.eq_nil_or_concat b with rfl | ⟨b', x, rfl⟩
    · have := (List.append_inj' e rfl).2
      simp at this
    · rw [List.concat_eq_append, ← List.cons_append, ← List.append_assoc] at e
      exact h3 a b' q j (List.append_inj' e rfl).1

theorem logOk_run {ini : Nat → Nat → Bool} {log : List Event} (h : LogOk ini log) (p i : Nat) (hn : ini p i = true) :
    LogOk ini (log ++ [.run p i]) := by
  obtain ⟨h1, h2, h3⟩ := h
  refine ⟨?_, ?_, ?_⟩
  · intro q j; rw [h1]; simp
  · intro q j
    rw [List.count_append, List.count_eq_zero_of_not_mem (l := [Event.run p i]) (by simp)]
    exact h2 q j
  · intro a b q j e
    rcases List.eq_nil_or_concat b with rfl | ⟨b', x, rfl⟩
    · have := List.append_inj' e rfl
      obtain ⟨rfl, e2⟩ := this
      simp only [List.cons.injEq, Event.run.injEq, and_true] at e2
      obtain ⟨rfl, rfl⟩ := e2
      exact (h1 _ _).1 hn
    · rw [List.concat_eq_append, ← List.cons_append, ← List.append_assoc] at e
      exact h3 a b' q j (List.append_inj' e rfl).1

theorem logOk_recordInto (env : Env) (G : GraphSt) (p : RunPass) (index : Nat) (f f' : Frame)
    (h : LogOk f.initialised f.log) (e : recordInto env G p index f = some f') : LogOk f'.initialised f'.log := by
  unfold recordInto at e
  split at e
  · split at e
    · simp only at e
      split at e
      · simp at e
      · simp only [Option.some.injEq] at e
        subst e
        by_cases hi : f.initialised p.id index = true
        · simp only [hi, Bool.not_true, Bool.false_eq_true, if_false]
          exact logOk_run h _ _ hi
        · simp only [Bool.not_eq_true] at hi
          simp only [hi, Bool.not_false, if_true]
          exact logOk_run (logOk_init h _ _ hi) _ _ (by simp)
    · simp at e
  · simp only [Option.some.injEq] at e
    subst e
    exact h

theorem logOk_loop (env : Env) (G : GraphSt) (index : Nat → Nat) : ∀ (ps : List RunPass) (f f' : Frame),
    LogOk f.initialised f.log → recordLoop env G index ps f = some f' → LogOk f'.initialised f'.log := by
  intro ps
  induction ps with
  | nil => intro f f' h e; simp only [recordLoop, Option.some.injEq] at e; subst e; exact h
  | cons p ps ih =>
    intro f f' h e
    unfold recordLoop at e
    simp only at e
    split at e
    · simp at e
    · rename_i f1 e1
      exact ih _ _ (logOk_recordInto env G p _ ⟨⟨announce env G p ps f.recd.ctx, f.recd.cmds⟩, f.initialised, f.log⟩ f1 h e1) e

/-- C44. Over any life of a graph whose passes have different ids (C04): each pass is initialised at most once per
index, and every run of a pass with an index comes after its initialisation with that index. -/
theorem initialised_once_before_use (passes : List RunPass) (hid : (passes.map (·.id)).Nodup)
    (ini : Nat → Nat → Bool) (log : List Event) (h : Life passes ini log) : InitOnce log := by
  suffices hs : LogOk ini log from hs.2
  induction h with
  | built en index =>
    unfold construct
    have key : ∀ (ps : List RunPass) (f : Frame), LogOk f.initialised f.log → (ps.map (·.id)).Nodup →
        (∀ p ∈ ps, ∀ i, f.initialised p.id i = false) →
        LogOk (ps.foldl (fun f p => if en p.id then f.initialise p (index p.id) else f) f).initialised
          (ps.foldl (fun f p => if en p.id then f.initialise p (index p.id) else f) f).log := by
      intro ps
      induction ps with
      | nil => intro f hf _ _; exact hf
      | cons p ps ih =>
        intro f hf hn hfalse
        simp only [List.map_cons, List.nodup_cons] at hn
        rw [List.foldl_cons]
        apply ih _ _ hn.2
        · intro q hq i
          have hne : q.id ≠ p.id := fun e => hn.1 (e ▸ List.mem_map_of_mem hq)
          split
          · simp only [Frame.initialise]
            rw [if_neg (fun hx => hne hx.1)]
            exact hfalse q (by simp [hq]) i
          · exact hfalse q (by simp [hq]) i
        · split
          · exact logOk_init hf _ _ (hfalse p (by simp) _)
          · exact hf
    exact key passes _ ⟨by simp, by simp, by simp⟩ hid (fun _ _ _ => rfl)
  | recorded h x e ih =>
    unfold record at e
    simp only at e
    split at e
    · simp at e
    · rename_i f1 e1
      simp only [Option.some.injEq, Prod.mk.injEq] at e
      obtain ⟨-, rfl⟩ := e
      exact logOk_loop _ _ _ _ ⟨⟨_, []⟩, _, _⟩ _ ih e1

/-- C44. A disabled pass records no command, is not initialised, and doesn't change what is tracked: it only
registers its implicit actions. -/
theorem disabled_pass_records_nothing (env : Env) (G : GraphSt) (p : RunPass) (index : Nat) (f : Frame)
    (hd : env.enabled p.id = false) : ∃ f', recordInto env G p index f = some f' ∧ f'.recd.cmds = f.recd.cmds
      ∧ f'.log = f.log ∧ f'.recd.ctx.images = f.recd.ctx.images ∧ f'.recd.ctx.buffers = f.recd.ctx.buffers
      ∧ f'.recd.ctx.implicit = f.recd.ctx.implicit ++ p.implicitActions.map fun va => ⟨p.id, va.1, va.2⟩ := by
  unfold recordInto
  rw [if_neg (by simp [hd])]
  refine ⟨_, rfl, ?_⟩
  simp only [registerAll]
  have key : ∀ (l : List (View × Action)) (r : Rec),
      (l.foldl (fun r va => r.register ⟨p.id, va.1, va.2⟩) r).cmds = r.cmds
      ∧ (l.foldl (fun r va => r.register ⟨p.id, va.1, va.2⟩) r).ctx.images = r.ctx.images
      ∧ (l.foldl (fun r va => r.register ⟨p.id, va.1, va.2⟩) r).ctx.buffers = r.ctx.buffers
      ∧ (l.foldl (fun r va => r.register ⟨p.id, va.1, va.2⟩) r).ctx.implicit
        = r.ctx.implicit ++ l.map fun va => ⟨p.id, va.1, va.2⟩ := by
    intro l
    induction l with
    | nil => intro r; simp
    | cons a l ih =>
      intro r
      obtain ⟨h1, h2, h3, h4⟩ := ih (r.register ⟨p.id, a.1, a.2⟩)
      rw [List.foldl_cons]
      refine ⟨h1, h2, h3, ?_⟩
      rw [h4]
      simp [Rec.register]
  obtain ⟨h1, h2, h3, h4⟩ := key p.implicitActions f.recd
  exact ⟨h1, trivial, h2, h3, h4⟩

/-- Non-vacuity: pass 1 disabled at construction, enabled later; its initialisation is then done by the recording. -/
example : ((record ⟨false, fun _ => true⟩ xG [] (fun _ => 0) xPasses
    (construct (fun i => i == 2) (fun _ => 0) xPasses).initialised
    (construct (fun i => i == 2) (fun _ => 0) xPasses).log).map fun x => x.2.log)
    = some [.init 2 0, .init 1 0, .run 1 0, .run 2 0] := by decide

example : (xPasses.map (·.id)).Nodup := by decide

/-! ### C48 -/

/-- A pass reading and writing a storage image. -/
def vPass : RunPass :=
  ⟨1, 1, true, ⟨Access.shaderRead, Stage.computeShader⟩, [ImageAdder.inOutStorage.attach 1 0 [xView]], [], [],
    fun _ r => r⟩

/-- Three executions of the graph, the pass being disabled in the second: what the graph remembers of the image
after the first and second, and the barriers of the third. -/
def vRuns : Option (Option Nat × Option Nat × List Cmd) :=
  (record ⟨false, fun _ => true⟩ xG [] (fun _ => 0) [vPass] (fun _ _ => false) []).bind fun x1 =>
  (record ⟨false, fun _ => false⟩ x1.1 [] (fun _ => 0) [vPass] x1.2.initialised x1.2.log).bind fun x2 =>
  (record ⟨false, fun _ => true⟩ x2.1 [] (fun _ => 0) [vPass] x2.2.initialised x2.2.log).map fun x3 =>
    ((x1.1.final.images.at 1 0 0).map (·.layout), (x2.1.final.images.at 1 0 0).map (·.layout), x3.2.recd.cmds)

/-- C48 is false: an execution that doesn't use an image makes the graph forget it; the next execution moves it
from UNDEFINED, which discards its content, although the pass declares it reads it. -/
theorem unused_execution_forgets :
    vRuns = some (some Layout.general, none, [.imageBarrier 1 xView.range (makeLayoutState Layout.undefined).state
      (makeLayoutState Layout.general).state Layout.undefined Layout.general]) := by decide

/-- C48 (partial: only the execution just before). A state the previous execution left, for a view neither imported nor
declared as input, is what the next one starts from. -/
theorem remembered_once_partial (G : GraphSt) (v : View) (s : LayoutState) (sub : Range)
    (hd : Designates v.image v.viewType v.range sub) (hne : sub.NonEmpty)
    (hin : ∀ l m, sub.Has l m → G.inputs.at v.image.id l m = none)
    (hfin : ∀ l m, sub.Has l m → G.final.images.at v.image.id l m = some s) :
    (getCurrentLayoutState G (startCtx []) v).1 = s := by
  obtain ⟨l0, m0, h0⟩ := sub.nonEmpty_iff.1 hne
  have ht : ((startCtx []).images.getState v.image v.viewType v.range).layout = Layout.undefined := rfl
  have hi : (G.inputs.getState v.image v.viewType v.range).layout = Layout.undefined :=
    getState_none fun l m hl => hin l m ((hd.has_iff l m).2 hl)
  have := (current_lookup G (startCtx []) v).2.2 ht hi
  rw [this]
  apply LayoutMap.getState_uniform
  · exact ⟨l0, m0, (hd.has_iff _ _).1 h0, by rw [hfin _ _ h0]; rfl⟩
  · intro l m t hl hx
    rw [hfin l m ((hd.has_iff _ _).2 hl)] at hx
    exact (Option.some.inj hx).symm

/-! ### C16 -/

/-- The state in which a pass wants the buffers of an attachment. -/
def wantsBuf (p : RunPass) (a : Attachment) : AccessState := ⟨a.getAccessMask, a.getPipelineStageFlags p.compute⟩

/-- Attachment `a` of the pass is a use of buffer `b` that is followed. -/
def UsesBuf (p : RunPass) (index b : Nat) (a : Attachment) : Prop :=
  a ∈ p.buffers ∧ Followed a ∧ a.buf.buffer index = some b

theorem usesBuf_iff (p : RunPass) (index b : Nat) (a : Attachment) :
    UsesBuf p index b a ↔ a ∈ p.buffers ∧ guarded a = true ∧ a.buf.buffer index = some b := by
  unfold UsesBuf; rw [guarded_iff]

/-- The pass's body neither changes the tracked state of the buffer nor removes recorded commands. -/
def BodyLeaves (p : RunPass) (b : Nat) : Prop :=
  ∀ i r, (p.body i r).ctx.getAccess b = r.ctx.getAccess b ∧ r.cmds <+: (p.body i r).cmds

/-- Between two recordings: the buffer's tracked state is the same, commands were only appended. -/
def LeavesBuf (b : Nat) (r r' : Rec) : Prop := r'.ctx.getAccess b = r.ctx.getAccess b ∧ r.cmds <+: r'.cmds

theorem leavesBuf_refl (b : Nat) (r : Rec) : LeavesBuf b r r := ⟨rfl, List.prefix_refl _⟩
theorem leavesBuf_trans {b : Nat} {x y z : Rec} (h : LeavesBuf b x y) (h' : LeavesBuf b y z) : LeavesBuf b x z :=
  ⟨h'.1.trans h.1, h.2.trans h'.2⟩

theorem leavesBuf_barrier (b : Nat) (env : Env) (r : Rec) (v : View) (i : Nat) (w : LayoutState) (f : Bool) :
    LeavesBuf b r (r.viewBarrier env v i w f) := by
  unfold Rec.viewBarrier Rec.imageBarrier
  simp only
  repeat' split
  all_goals first
    | exact ⟨rfl, List.prefix_append _ _⟩
    | exact ⟨rfl, List.prefix_refl _⟩

theorem leavesBuf_runImplicit (b : Nat) (env : Env) (r : Rec) (v : View) : LeavesBuf b r (r.runImplicit env v) :=
  (runImplicit_lift env (LeavesBuf b) (fun _ => True) (fun _ => True)
    (fun r => leavesBuf_refl b r) (fun _ _ _ h h' => leavesBuf_trans h h')
    (fun r w i wn f _ _ => leavesBuf_barrier b env r w i wn f) (fun _ _ _ _ => ⟨rfl, List.prefix_append _ _⟩)
    (fun _ _ => ⟨rfl, List.prefix_refl _⟩) _ r v rfl trivial (fun _ _ _ _ _ _ _ => ⟨trivial, trivial⟩)).1

theorem current_buffers (G : GraphSt) (c : Ctx) (v : View) : (getCurrentLayoutState G c v).2.buffers = c.buffers := by
  unfold getCurrentLayoutState
  simp only
  repeat' split
  all_goals rfl

theorem leavesBuf_recordImage (b : Nat) (env : Env) (G : GraphSt) (index : Nat) (r r' : Rec) (a : Attachment)
    (h : recordImage env G index r a = some r') : LeavesBuf b r r' := by
  unfold recordImage at h
  split at h
  · simp at h
  · rename_i v _
    have h1 := leavesBuf_runImplicit b env r v
    simp only at h
    generalize r.runImplicit env v = r1 at *
    have hc : ((if !a.isInput then (makeLayoutState Layout.undefined, r1.ctx)
        else getCurrentLayoutState G r1.ctx v : LayoutState × Ctx)).2.buffers = r1.ctx.buffers := by
      split
      · rfl
      · exact current_buffers _ _ _
    generalize (if !a.isInput then (makeLayoutState Layout.undefined, r1.ctx)
        else getCurrentLayoutState G r1.ctx v : LayoutState × Ctx) = cur at *
    have h2 : LeavesBuf b r ⟨cur.2, r1.cmds⟩ :=
      leavesBuf_trans h1 ⟨by simp only [Ctx.getAccess, hc], List.prefix_refl _⟩
    split at h
    · split at h
      · simp only [Option.some.injEq] at h
        subst h
        refine leavesBuf_trans h2 (leavesBuf_trans (leavesBuf_barrier b env ⟨cur.2, r1.cmds⟩ v cur.1.layout clearState false)
          (leavesBuf_trans ?_ (leavesBuf_barrier b env (Rec.emit _ _) v _ _ _)))
        exact ⟨rfl, List.prefix_append _ _⟩
      · simp only [Option.some.injEq] at h
        subst h
        exact leavesBuf_trans h2 (leavesBuf_barrier b env ⟨cur.2, r1.cmds⟩ v _ _ _)
    · simp only [Option.some.injEq] at h
      subst h
      exact h1

theorem leavesBuf_images (b : Nat) (env : Env) (G : GraphSt) (index : Nat) : ∀ (as : List Attachment) (r r' : Rec),
    foldOpt (recordImage env G index) r as = some r' → LeavesBuf b r r' := by
  intro as
  induction as with
  | nil => intro r r' h; simp only [foldOpt, Option.some.injEq] at h; subst h; exact leavesBuf_refl _ _
  | cons a as ih =>
    intro r r' h
    unfold foldOpt at h
    split at h
    · simp at h
    · rename_i r1 e
      exact leavesBuf_trans (leavesBuf_recordImage b env G index _ _ _ e) (ih _ _ h)

/-- What a buffer barrier does when its initial state is the tracked one. -/
theorem bufferBarrier_tracked (r : Rec) (b o s : Nat) (w : AccessState) :
    (r.bufferBarrier b o s (r.ctx.getAccess b) w).ctx.getAccess b = w
    ∧ (∀ b', b' ≠ b → (r.bufferBarrier b o s (r.ctx.getAccess b) w).ctx.getAccess b' = r.ctx.getAccess b')
    ∧ (r.bufferBarrier b o s (r.ctx.getAccess b) w).cmds
      = r.cmds ++ (if r.ctx.getAccess b = w then [] else [.bufferBarrier b o s (r.ctx.getAccess b) w]) := by
  unfold Rec.bufferBarrier
  simp only [ite_self, Bool.false_or]
  by_cases h : r.ctx.getAccess b = w
  · subst h; simp
  · have : (((r.ctx.getAccess b).access != w.access || (r.ctx.getAccess b).stage != w.stage)) = true := by
      generalize r.ctx.getAccess b = x at *
      cases x; cases w
      simp only [AccessState.mk.injEq, not_and, Bool.or_eq_true, bne_iff_ne] at h ⊢
      rename_i a b c d
      by_cases ha : a = c
      · exact Or.inr (h ha)
      · exact Or.inl ha
    rw [if_pos this, if_neg h]
    refine ⟨by simp [Ctx.getAccess, Ctx.setAccess], ?_, rfl⟩
    intro b' hb'
    simp [Ctx.getAccess, Ctx.setAccess, hb', Rec.emit]

theorem recordBuffer_effect (compute : Bool) (index : Nat) (r r' : Rec) (a : Attachment) (b : Nat)
    (h : recordBuffer compute index r a = some r') :
    r.cmds <+: r'.cmds
    ∧ (¬ (guarded a = true ∧ a.buf.buffer index = some b) → r'.ctx.getAccess b = r.ctx.getAccess b)
    ∧ (guarded a = true ∧ a.buf.buffer index = some b →
        r'.ctx.getAccess b = ⟨a.getAccessMask, a.getPipelineStageFlags compute⟩
        ∧ (a.isClearableBuffer = false → r.ctx.getAccess b ≠ ⟨a.getAccessMask, a.getPipelineStageFlags compute⟩ →
          r'.cmds = r.cmds ++ [.bufferBarrier b a.buf.offset a.buf.size (r.ctx.getAccess b)
            ⟨a.getAccessMask, a.getPipelineStageFlags compute⟩])) := by
  unfold recordBuffer at h
  by_cases hg : guarded a = true
  · rw [if_pos hg] at h
    split at h
    · simp at h
    · rename_i x hx
      simp only at h
      by_cases hc : a.isClearableBuffer = true
      · simp only [hc, if_true, Option.some.injEq] at h
        obtain ⟨p1, p2, p3⟩ := bufferBarrier_tracked r x a.buf.offset a.buf.size ⟨Access.transferWrite, Stage.transfer⟩
        generalize r.bufferBarrier x a.buf.offset a.buf.size (r.ctx.getAccess x)
          ⟨Access.transferWrite, Stage.transfer⟩ = r1 at *
        generalize hr2 : r1.emit (Cmd.fillBuffer x (if a.buf.offset = 0 then 0 else getAlignedSize a.buf.offset 4)
          (if a.buf.size = wholeSize then wholeSize else getAlignedSize a.buf.size 4)) = r2 at *
        have e2 : r2.ctx = r1.ctx := by rw [← hr2]; rfl
        have c2 : r1.cmds <+: r2.cmds := by rw [← hr2]; exact List.prefix_append _ _
        have hq := bufferBarrier_tracked r2 x a.buf.offset a.buf.size ⟨a.getAccessMask, a.getPipelineStageFlags compute⟩
        rw [show r2.ctx.getAccess x = ⟨Access.transferWrite, Stage.transfer⟩ from by rw [e2]; exact p1, h] at hq
        obtain ⟨q1, q2, q3⟩ := hq
        refine ⟨?_, ?_, ?_⟩
        · refine List.IsPrefix.trans ?_ (c2.trans ?_)
          · rw [p3]; exact List.prefix_append _ _
          · rw [q3]; exact List.prefix_append _ _
        · intro hn
          have hbx : b ≠ x := fun e => hn ⟨hg, e ▸ hx⟩
          rw [q2 b hbx, e2, p2 b hbx]
        · rintro ⟨_, hb⟩
          rw [hx] at hb
          cases hb
          exact ⟨q1, fun hx => absurd (hc.symm.trans hx) (by simp)⟩
      · simp only [hc, Bool.false_eq_true, if_false, Option.some.injEq] at h
        obtain ⟨p1, p2, p3⟩ := bufferBarrier_tracked r x a.buf.offset a.buf.size
          ⟨a.getAccessMask, a.getPipelineStageFlags compute⟩
        rw [h] at p1 p2 p3
        refine ⟨by rw [p3]; exact List.prefix_append _ _, ?_, ?_⟩
        · intro hn
          exact p2 b fun e => hn ⟨hg, e ▸ hx⟩
        · rintro ⟨_, hb⟩
          rw [hx] at hb
          cases hb
          exact ⟨p1, fun _ hne => by rw [p3, if_neg hne]⟩
  · rw [if_neg hg] at h
    simp only [Option.some.injEq] at h
    subst h
    exact ⟨List.prefix_refl _, fun _ => rfl, fun hx => absurd hx.1 hg⟩

/-- The buffer attachments of one pass, all of whose guarded uses of `b` want the same state. -/
theorem recordBuffers_effect (compute : Bool) (index b : Nat) (s : AccessState) :
    ∀ (as : List Attachment) (r r' : Rec),
    (∀ a ∈ as, guarded a = true → a.buf.buffer index = some b →
      (⟨a.getAccessMask, a.getPipelineStageFlags compute⟩ : AccessState) = s) →
    foldOpt (recordBuffer compute index) r as = some r' →
    r.cmds <+: r'.cmds
    ∧ ((∀ a ∈ as, ¬ (guarded a = true ∧ a.buf.buffer index = some b)) → r'.ctx.getAccess b = r.ctx.getAccess b)
    ∧ ((∃ a ∈ as, guarded a = true ∧ a.buf.buffer index = some b) →
        r'.ctx.getAccess b = s
        ∧ ((∀ a ∈ as, guarded a = true → a.buf.buffer index = some b → a.isClearableBuffer = false) →
          r.ctx.getAccess b ≠ s → ∃ o n pre post, r.cmds <+: pre
            ∧ r'.cmds = pre ++ .bufferBarrier b o n (r.ctx.getAccess b) s :: post)) := by
  intro as
  induction as with
  | nil =>
    intro r r' _ h
    simp only [foldOpt, Option.some.injEq] at h
    subst h
    exact ⟨List.prefix_refl _, fun _ => rfl, fun ⟨_, hx, _⟩ => by simp at hx⟩
  | cons a as ih =>
    intro r r' hs h
    unfold foldOpt at h
    split at h
    · simp at h
    · rename_i r1 e
      obtain ⟨p1, p2, p3⟩ := recordBuffer_effect compute index r r1 a b e
      obtain ⟨q1, q2, q3⟩ := ih r1 r' (fun x hx => hs x (by simp [hx])) h
      refine ⟨p1.trans q1, ?_, ?_⟩
      · intro hn
        rw [q2 fun x hx => hn x (by simp [hx]), p2 (hn a (by simp))]
      · rintro ⟨x, hx, hgx⟩
        by_cases ha : guarded a = true ∧ a.buf.buffer index = some b
        · obtain ⟨p4, p5⟩ := p3 ha
          have hsa := hs a (by simp) ha.1 ha.2
          rw [hsa] at p4 p5
          have hend : r'.ctx.getAccess b = s := by
            by_cases hex : ∃ a ∈ as, guarded a = true ∧ a.buf.buffer index = some b
            · exact (q3 hex).1
            · rw [q2 (fun x hx hy => hex ⟨x, hx, hy⟩), p4]
          refine ⟨hend, ?_⟩
          intro hcl hne
          have := p5 (hcl a (by simp) ha.1 ha.2) hne
          obtain ⟨tl, htl⟩ := q1
          refine ⟨a.buf.offset, a.buf.size, r.cmds, tl, List.prefix_refl _, ?_⟩
          rw [← htl, this]
          simp
        · have hex : ∃ a ∈ as, guarded a = true ∧ a.buf.buffer index = some b := by
            rcases List.mem_cons.1 hx with rfl | hx
            · exact absurd hgx ha
            · exact ⟨x, hx, hgx⟩
          obtain ⟨q4, q5⟩ := q3 hex
          refine ⟨q4, ?_⟩
          intro hcl hne
          rw [p2 ha] at q5
          obtain ⟨o, n, pre, post, h1, h2⟩ := q5 (fun x hx => hcl x (by simp [hx])) hne
          exact ⟨o, n, pre, post, p1.trans h1, h2⟩

theorem leavesBuf_registerAll (b : Nat) (p : RunPass) (r : Rec) : LeavesBuf b r (registerAll p r) := by
  unfold registerAll
  generalize p.implicitActions = l
  induction l generalizing r with
  | nil => exact leavesBuf_refl _ _
  | cons a l ih => exact leavesBuf_trans ⟨rfl, List.prefix_refl _⟩ (ih (r.register ⟨p.id, a.1, a.2⟩))

/-- One pass that is disabled or doesn't use the buffer leaves it alone. -/
theorem leavesBuf_recordInto (env : Env) (G : GraphSt) (p : RunPass) (index b : Nat) (f f' : Frame)
    (hb : BodyLeaves p b) (hn : env.enabled p.id = true → ∀ a, ¬ UsesBuf p index b a)
    (e : recordInto env G p index f = some f') : LeavesBuf b f.recd f'.recd := by
  unfold recordInto at e
  split at e
  · rename_i hen
    split at e
    · simp only at e
      have hr : (if (!f.initialised p.id index) = true then f.initialise p index else f).recd = f.recd := by
        split <;> rfl
      rw [hr] at e
      split at e
      · simp at e
      · rename_i r he
        simp only [Option.some.injEq] at e
        subst e
        unfold prepare at he
        split at he
        · simp at he
        · rename_i r1 e1
          have h1 := leavesBuf_images b env G index _ _ _ e1
          obtain ⟨h2, h3, -⟩ := recordBuffers_effect p.compute index b ⟨0, 0⟩ p.buffers r1 r
            (fun a ha hg hx => absurd ⟨ha, (guarded_iff _).1 hg, hx⟩ (hn hen a)) he
          have h4 := h3 fun a ha hx => hn hen a ⟨ha, (guarded_iff _).1 hx.1, hx.2⟩
          exact leavesBuf_trans h1 (leavesBuf_trans ⟨h4, h2⟩
            (leavesBuf_trans (hb index r) (leavesBuf_registerAll b p _)))
    · simp at e
  · simp only [Option.some.injEq] at e
    subst e
    exact leavesBuf_registerAll b p _

/-- The reader's side: from a recording where the buffer is tracked in `s`. -/
theorem reader_spec (env : Env) (G : GraphSt) (index : Nat → Nat) (b : Nat) (s t : AccessState) (hst : s ≠ t) :
    ∀ (ps : List RunPass) (f : Frame) (j : Nat) (r : Rec) (q : RunPass),
    f.recd.ctx.getAccess b = s → EntersAt env G index ps f j r → ps[j]? = some q →
    (∀ p ∈ ps, BodyLeaves p b) →
    (∀ i p, i < j → ps[i]? = some p → env.enabled p.id = true → ∀ a, ¬ UsesBuf p (index p.id) b a) →
    (∃ a, UsesBuf q (index q.id) b a) →
    (∀ a, UsesBuf q (index q.id) b a → wantsBuf q a = t ∧ a.isClearableBuffer = false) →
    ∃ o n pre post, f.recd.cmds <+: pre ∧ r.cmds = pre ++ .bufferBarrier b o n s t :: post := by
  intro ps
  induction ps with
  | nil => intro f j r q _ h; exact absurd h (by simp [EntersAt])
  | cons p next ih =>
    intro f j r q hf h hq hbod hbet hex hall
    have ha : (announce env G p next f.recd.ctx).getAccess b = f.recd.ctx.getAccess b := by
      unfold announce
      split <;> rfl
    cases j with
    | zero =>
      simp only [List.getElem?_cons_zero, Option.some.injEq] at hq
      subst hq
      obtain ⟨hen, hr⟩ := h
      unfold prepare at hr
      split at hr
      · simp at hr
      · rename_i r1 e1
        have h1 := leavesBuf_images b env G _ _ _ _ e1
        obtain ⟨a, ha1, ha2, ha3⟩ := hex
        obtain ⟨h2, -, h3⟩ := recordBuffers_effect p.compute (index p.id) b t p.buffers r1 r
          (fun a h1 h2 h3 => (hall a ⟨h1, (guarded_iff _).1 h2, h3⟩).1) hr
        have hs1 : r1.ctx.getAccess b = s := by rw [h1.1]; simp only [ha]; exact hf
        obtain ⟨o, n, pre, post, h4, h5⟩ := (h3 ⟨a, ha1, (guarded_iff _).2 ha2, ha3⟩).2
          (fun a h1 h2 h3 => (hall a ⟨h1, (guarded_iff _).1 h2, h3⟩).2) (by rw [hs1]; exact hst)
        rw [hs1] at h5
        exact ⟨o, n, pre, post, h1.2.trans h4, h5⟩
    | succ j =>
      obtain ⟨f', e, h'⟩ := h
      have hl := leavesBuf_recordInto env G p (index p.id) b _ f' (hbod p (by simp))
        (hbet 0 p (by omega) rfl) e
      obtain ⟨o, n, pre, post, h4, h5⟩ := ih f' j r q (by rw [hl.1]; simp only [ha]; exact hf) h' hq
        (fun x hx => hbod x (by simp [hx]))
        (fun i x hi hx => hbet (i + 1) x (by omega) hx) hex hall
      exact ⟨o, n, pre, post, hl.2.trans h4, h5⟩

/-- C16 (partial: buffers that both passes declare as storage, transfer or implicit attachments, in different states).
In any recording of any graph, if the body of pass `q` is entered, an earlier enabled pass `w` used buffer `b` wanting
state `s`, no enabled pass in between used it, and `q` wants it in another state `t`, then between the end of `w`'s
body and the start of `q`'s, a barrier on `b` from `s` to `t` was recorded. -/
theorem buffer_use_separated_partial (env : Env) (G : GraphSt) (index : Nat → Nat) (b : Nat) (s t : AccessState)
    (hst : s ≠ t) : ∀ (ps : List RunPass) (f : Frame) (k j : Nat) (r : Rec) (w q : RunPass),
    EntersAt env G index ps f j r → k < j → ps[k]? = some w → ps[j]? = some q →
    (∀ p ∈ ps, BodyLeaves p b) → env.enabled w.id = true →
    (∃ a, UsesBuf w (index w.id) b a) → (∀ a, UsesBuf w (index w.id) b a → wantsBuf w a = s) →
    (∀ i p, k < i → i < j → ps[i]? = some p → env.enabled p.id = true → ∀ a, ¬ UsesBuf p (index p.id) b a) →
    (∃ a, UsesBuf q (index q.id) b a) →
    (∀ a, UsesBuf q (index q.id) b a → wantsBuf q a = t ∧ a.isClearableBuffer = false) →
    ∃ r0 o n pre post, EntersAt env G index ps f k r0 ∧ (w.body (index w.id) r0).cmds <+: pre
      ∧ r.cmds = pre ++ .bufferBarrier b o n s t :: post := by
  intro ps
  induction ps with
  | nil => intro f k j r w q h; exact absurd h (by simp [EntersAt])
  | cons p next ih =>
    intro f k j r w q h hkj hw hq hbod hen hwex hwall hbet hqex hqall
    cases j with
    | zero => omega
    | succ j =>
      obtain ⟨f', e, h'⟩ := h
      cases k with
      | succ k =>
        obtain ⟨r0, o, n, pre, post, h1, h2⟩ := ih f' k j r w q h' (by omega) hw hq
          (fun x hx => hbod x (by simp [hx])) hen hwex hwall
          (fun i x hi hj hx => hbet (i + 1) x (by omega) (by omega) hx) hqex hqall
        exact ⟨r0, o, n, pre, post, ⟨f', e, h1⟩, h2⟩
      | zero =>
        simp only [List.getElem?_cons_zero, Option.some.injEq] at hw
        subst hw
        unfold recordInto at e
        rw [if_pos hen] at e
        split at e
        · simp only at e
          have hr : (if (!f.initialised p.id (index p.id)) = true
              then Frame.initialise ⟨⟨announce env G p next f.recd.ctx, f.recd.cmds⟩, f.initialised, f.log⟩ p (index p.id)
              else ⟨⟨announce env G p next f.recd.ctx, f.recd.cmds⟩, f.initialised, f.log⟩).recd
              = ⟨announce env G p next f.recd.ctx, f.recd.cmds⟩ := by
            split <;> rfl
          rw [hr] at e
          split at e
          · simp at e
          · rename_i r0 he
            simp only [Option.some.injEq] at e
            subst e
            have hent : EntersAt env G index (p :: next) f 0 r0 := ⟨hen, he⟩
            have htrack : r0.ctx.getAccess b = s := by
              unfold prepare at he
              split at he
              · simp at he
              · rename_i r1 e1
                obtain ⟨a, ha⟩ := hwex
                exact ((recordBuffers_effect p.compute (index p.id) b s p.buffers r1 r0
                  (fun a h1 h2 h3 => hwall a ⟨h1, (guarded_iff _).1 h2, h3⟩) he).2.2 ⟨a, (usesBuf_iff _ _ _ _).1 ha⟩).1
            have hb := hbod p (by simp) (index p.id) r0
            have hreg := leavesBuf_registerAll b p (p.body (index p.id) r0)
            obtain ⟨o, n, pre, post, h1, h2⟩ := reader_spec env G index b s t hst next _ j r q
              (by simp only; rw [hreg.1, hb.1]; exact htrack) h' hq (fun x hx => hbod x (by simp [hx]))
              (fun i x hi hx => hbet (i + 1) x (by omega) (by omega) hx) hqex hqall
            exact ⟨r0, o, n, pre, post, hent, hreg.2.trans h1, h2⟩
        · simp at e

/-- The source access of that barrier contains the write, when `w` wrote: storage and transfer outputs ask for the
write access (Props/Attachment, `buffer_access_matches`). -/
theorem storage_output_wants_write (p : RunPass) (m : BufferAdder) (d : Dir) (hd : m.dir = some d)
    (hw : d.writes = true) (binding : Nat) (bufs : List Nat) (v o n : Nat) :
    (wantsBuf p (m.attach p.id binding bufs v o n)).access &&& writeBits ≠ 0 := by
  have h := (buffer_access_matches m d hd p.id binding bufs v o n p.compute).1
  rw [hw, bne_iff_ne] at h
  exact h

/-! #### Non-vacuity and negations -/

/-- A compute pass using a buffer through one of the `add…` methods, whose body records dispatch `id`. -/
def bPass (id : Nat) (m : BufferAdder) : RunPass :=
  ⟨id, 1, true, ⟨Access.shaderRead, Stage.computeShader⟩, [], [m.attach id 0 [7] 0 0 64], [],
    fun _ r => r.emit (.user id)⟩
/-- A compute pass using an image. -/
def iPass (id : Nat) (m : ImageAdder) : RunPass :=
  ⟨id, 1, true, ⟨Access.shaderRead, Stage.computeShader⟩, [m.attach id 0 [xView]], [], [],
    fun _ r => r.emit (.user id)⟩

/-- The commands recorded by the first execution of a graph with all its passes enabled. -/
def firstCmds (passes : List RunPass) : Option (List Cmd) :=
  (record ⟨false, fun _ => true⟩ xG [] (fun _ => 0) passes (fun _ _ => false) []).map (·.2.recd.cmds)

/-- `buffer_use_separated_partial` applies to a writer followed by a reader. -/
theorem example_separated : ∃ r r0 o n pre post,
    EntersAt ⟨false, fun _ => true⟩ xG (fun _ => 0) [bPass 1 .outputStorage, bPass 2 .inputStorage]
      (frameStart false [] [bPass 1 .outputStorage, bPass 2 .inputStorage] (fun _ _ => false) []) 1 r
    ∧ ((bPass 1 .outputStorage).body 0 r0).cmds <+: pre
    ∧ r.cmds = pre ++ .bufferBarrier 7 o n ⟨Access.shaderWrite, Stage.computeShader⟩
        ⟨Access.shaderRead, Stage.computeShader⟩ :: post := by
  obtain ⟨r, h, -⟩ := entersAt_second (env := ⟨false, fun _ => true⟩) (G := xG) (index := fun _ => 0)
    (p := bPass 1 .outputStorage) (q := bPass 2 .inputStorage) (next := [])
    (f := frameStart false [] [bPass 1 .outputStorage, bPass 2 .inputStorage] (fun _ _ => false) [])
    (fun r => r.cmds.length) 3 rfl (by decide)
  have hbl : ∀ i m, BodyLeaves (bPass i m) 7 := fun i m _ r => ⟨rfl, List.prefix_append _ _⟩
  obtain ⟨r0, o, n, pre, post, -, h2, h3⟩ := buffer_use_separated_partial ⟨false, fun _ => true⟩ xG (fun _ => 0) 7
    ⟨Access.shaderWrite, Stage.computeShader⟩ ⟨Access.shaderRead, Stage.computeShader⟩ (by decide)
    [bPass 1 .outputStorage, bPass 2 .inputStorage] _ 0 1 r (bPass 1 .outputStorage) (bPass 2 .inputStorage) h
    (by decide) rfl rfl
    (by intro p hp; simp only [List.mem_cons, List.not_mem_nil, or_false] at hp; rcases hp with rfl | rfl <;> apply hbl)
    rfl ⟨_, List.mem_cons_self, by decide, by decide⟩
    (by rintro a ⟨ha, -⟩; simp only [bPass, List.mem_cons, List.not_mem_nil, or_false] at ha; subst ha; decide)
    (by intro i p h1 h2; omega)
    ⟨_, List.mem_cons_self, by decide, by decide⟩
    (by rintro a ⟨ha, -⟩; simp only [bPass, List.mem_cons, List.not_mem_nil, or_false] at ha; subst ha; decide)
  exact ⟨r, r0, o, n, pre, post, h, h2, h3⟩

/-- C16 is false of two passes that both read and write a storage buffer: nothing separates the second pass's read
from the first one's write. -/
theorem buffer_inout_not_separated : ∃ cmds pre,
    firstCmds [bPass 1 .inOutStorage, bPass 2 .inOutStorage] = some cmds ∧ cmds = pre ++ [.user 1, .user 2] :=
  ⟨_, [.bufferBarrier 7 0 64 bottom ⟨Access.shaderRead ||| Access.shaderWrite, Stage.computeShader⟩],
    by decide, rfl⟩

/-- C16 is false of a uniform buffer read after a storage write: uniform attachments are not guarded. -/
theorem uniform_read_not_separated : ∃ cmds pre,
    firstCmds [bPass 1 .outputStorage, bPass 2 .uniform] = some cmds ∧ cmds = pre ++ [.user 1, .user 2] :=
  ⟨_, [.bufferBarrier 7 0 64 bottom ⟨Access.shaderWrite, Stage.computeShader⟩], by decide, rfl⟩

/-- C16 is false of two passes that both read and write a storage image, or of a storage image written then read:
both want the `GENERAL` layout, so nothing is recorded between them. -/
theorem image_general_not_separated (m : ImageAdder) (hm : m = .inOutStorage ∨ m = .inputStorage) : ∃ cmds pre,
    firstCmds [iPass 1 .inOutStorage, iPass 2 m] = some cmds ∧ cmds = pre ++ [.user 1, .user 2] := by
  rcases hm with rfl | rfl
  all_goals exact ⟨_, [.imageBarrier 1 xView.range (makeLayoutState Layout.undefined).state
    (makeLayoutState Layout.general).state Layout.undefined Layout.general], by decide, rfl⟩

/-- C16 is false of a storage image written and then sampled: a barrier is recorded, but its source scope has no write
access, since the state wanted for a storage image is that of the `GENERAL` layout in general. -/
theorem image_write_not_made_available : ∃ cmds pre s,
    firstCmds [iPass 1 .outputStorage, iPass 2 .sampled] = some cmds
    ∧ cmds = pre ++ [.user 1, .imageBarrier 1 xView.range s (makeLayoutState Layout.shaderReadOnly).state
        Layout.general Layout.shaderReadOnly, .user 2]
    ∧ s.access &&& writeBits = 0 :=
  ⟨_, [.imageBarrier 1 xView.range (makeLayoutState Layout.undefined).state
    (makeLayoutState Layout.general).state Layout.undefined Layout.general], (makeLayoutState Layout.general).state,
    by decide, rfl, by decide⟩

end Verif.Run
