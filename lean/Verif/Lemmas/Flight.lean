import Verif.Spec.Flight
/-
Where the handles of a pipeline holder are: current, scheduled for destruction, destroyed, or not answered yet; each in one place.
-/
namespace Verif.Flight
open Verif.Pipe (Kind Ev)

/-- The handles the holder holds. -/
def cur (s : Pipe.St) : List Nat := s.setLayout :: s.layout :: s.pool :: (s.pipelines ++ s.sets)

/-- How many places hold a handle; a handle not answered yet counts as held once. -/
def room (s : Pipe.St) (h : Nat) : Nat := if h < s.next then (cur s).count h + s.queue.count h else 1

/-- No handle is held before the device answered it. -/
structure Fresh (s : Pipe.St) : Prop where
  pos : 0 < s.next
  unheld : ∀ h, s.next ≤ h → (cur s).count h = 0 ∧ s.queue.count h = 0

/-- From `s` to `s'` with the calls `E`. -/
structure Moves (s s' : Pipe.St) (E : List Ev) : Prop where
  evs : s'.evs = s.evs ++ E
  next : s.next ≤ s'.next
  room : ∀ h, h ≠ 0 → room s' h + (E.filterMap destroyed).count h ≤ room s h
  queue : ∃ Q, s'.queue = s.queue ++ Q ∧ ∀ x ∈ Q, x ≠ 0
  nonzero : ∀ h ∈ E.filterMap destroyed, h ≠ 0
  fresh : Fresh s'
  writes : ∀ h ∈ E.filterMap written, s.next ≤ h
  binds : ∀ t, E.flatMap (used t) = []

theorem Moves.refl {s : Pipe.St} (F : Fresh s) : Moves s s [] :=
  ⟨by simp, Nat.le_refl _, fun h _ => by simp, ⟨[], by simp⟩, fun _ h => by simp at h, F, fun _ h => by simp at h, fun _ => rfl⟩

theorem Moves.trans {s t u : Pipe.St} {E E' : List Ev} (a : Moves s t E) (b : Moves t u E') : Moves s u (E ++ E') := by
  refine ⟨by rw [b.evs, a.evs, List.append_assoc], Nat.le_trans a.next b.next, fun h h0 => ?_, ?_, fun h hh => ?_, b.fresh,
    fun h hh => ?_, fun x => ?_⟩
  · rw [List.filterMap_append, List.count_append]
    have := a.room h h0
    have := b.room h h0
    omega
  · obtain ⟨Q, hQ, nQ⟩ := a.queue
    obtain ⟨R, hR, nR⟩ := b.queue
    refine ⟨Q ++ R, by rw [hR, hQ, List.append_assoc], fun x hx => ?_⟩
    rcases List.mem_append.1 hx with hx | hx
    · exact nQ x hx
    · exact nR x hx
  · rw [List.filterMap_append, List.mem_append] at hh
    rcases hh with hh | hh
    · exact a.nonzero h hh
    · exact b.nonzero h hh
  · rw [List.filterMap_append, List.mem_append] at hh
    rcases hh with hh | hh
    · exact a.writes h hh
    · exact Nat.le_trans a.next (b.writes h hh)
  · rw [List.flatMap_append, a.binds, b.binds]; rfl

theorem count_set' (l : List Nat) (k x h : Nat) (hk : k < l.length) :
    (l.set k x).count h + (if l[k] = h then 1 else 0) = l.count h + (if x = h then 1 else 0) := by
  rw [List.count_set hk]
  have : (if l[k] = h then 1 else 0) ≤ l.count h := by
    split
    · exact List.count_pos_iff.2 (by rename_i e; rw [← e]; exact List.getElem_mem hk)
    · exact Nat.zero_le _
  simp only [beq_iff_eq]
  omega

/-- The same, whether or not the position exists. -/
theorem count_set_le (l : List Nat) (k x h : Nat) : (l.set k x).count h ≤ l.count h + (if x = h then 1 else 0) := by
  by_cases hk : k < l.length
  · have := count_set' l k x h hk; omega
  · rw [List.set_eq_of_length_le (by omega)]; omega

theorem moves_initialise {s : Pipe.St} (F : Fresh s) : ∃ E, Moves s s.initialise E := by
  unfold Pipe.St.initialise
  split
  · rename_i hl
    refine ⟨_, rfl, by simp only; omega, fun h h0 => ?_, ⟨[], by simp⟩,
      fun h hh => by simp [destroyed] at hh, ⟨by simp only; omega, fun h hh => ?_⟩, ?_, fun _ => rfl⟩
    · have := F.unheld h
      simp only [room, cur, List.count_cons, destroyed, List.filterMap_cons, List.filterMap_nil, List.count_nil, beq_iff_eq] at *
      by_cases c1 : h < s.next
      · rw [if_pos c1, if_pos (by omega), if_neg (by omega), if_neg (by omega), if_neg (by omega)]; omega
      · have := this (by omega)
        rw [if_neg c1]
        (repeat' split) <;> omega
    · have := F.unheld h
      simp only [cur, List.count_cons, beq_iff_eq] at *
      have := this (by omega)
      refine ⟨?_, this.2⟩
      rw [if_neg (by omega), if_neg (by omega), if_neg (by omega)]
      omega
    · intro h hh; simp [written] at hh
  · exact ⟨[], Moves.refl F⟩

/-- Only one more field changed: `renderPass`, `vertexBuffer`, `programs` or `bindings`. -/
theorem moves_same {s s' : Pipe.St} (F : Fresh s) (h1 : cur s' = cur s) (h2 : s'.queue = s.queue) (h3 : s'.next = s.next)
    (h4 : s'.evs = s.evs) : Moves s s' [] :=
  ⟨by simp [h4], by omega, fun h _ => by simp [room, h1, h2, h3], ⟨[], by simp [h2]⟩,
    fun _ h => by simp at h, ⟨by rw [h3]; exact F.pos, fun h hh => by rw [h1, h2]; exact F.unheld h (by omega)⟩, fun _ h => by simp at h, fun _ => rfl⟩

/-- A handle is taken by something else. -/
theorem moves_next {s : Pipe.St} (F : Fresh s) : Moves s { s with next := s.next + 1 } [] :=
  ⟨by simp, by simp, fun h _ => by
      have := F.unheld h
      simp only [room, cur, List.filterMap_nil, List.count_nil] at *
      split <;> split <;> omega,
    ⟨[], by simp⟩, fun _ h => by simp at h, ⟨by simp, fun h hh => by
      have := F.unheld h
      simp only [cur] at *
      exact this (by omega)⟩, fun _ h => by simp at h, fun _ => rfl⟩

theorem cacheProgram_same {s s' : Pipe.St} {i : Nat} (h : s.cacheProgram i = some s') :
    cur s' = cur s ∧ s'.queue = s.queue ∧ s'.next = s.next ∧ s'.evs = s.evs := by
  unfold Pipe.St.cacheProgram at h
  split at h
  · split at h
    · cases h; exact ⟨rfl, rfl, rfl, rfl⟩
    · cases h
  · cases h; exact ⟨rfl, rfl, rfl, rfl⟩

theorem getProgram_same {s s' : Pipe.St} {i p : Nat} (h : s.getProgram i = some (p, s')) :
    cur s' = cur s ∧ s'.queue = s.queue ∧ s'.next = s.next ∧ s'.evs = s.evs := by
  simp only [Pipe.St.getProgram, Option.bind_eq_some_iff] at h
  obtain ⟨t, ht, h⟩ := h
  have key : t = s' := by
    split at h
    all_goals
      obtain ⟨_, -, e⟩ := Option.map_eq_some_iff.1 h
      exact (Prod.mk.inj e).2
  rw [← key]
  exact cacheProgram_same ht

theorem moves_createPipeline {s s' : Pipe.St} (F : Fresh s) {i rp : Nat} (h : s.createPipeline i rp = some s') :
    ∃ E, Moves s s' E ∧ E.filterMap destroyed = [] := by
  simp only [Pipe.St.createPipeline, Option.bind_eq_bind, Option.bind_eq_some_iff, Option.pure_def, Option.some.injEq] at h
  obtain ⟨⟨p, t⟩, ht, k, hk, h⟩ := h
  obtain ⟨c1, c2, c3, c4⟩ := getProgram_same ht
  subst h
  have a := moves_same F c1 c2 c3 c4
  have Ft := a.fresh
  refine ⟨_, a.trans (u := _) (E' := _) ⟨rfl, by simp, fun h h0 => ?_, ⟨[], by simp⟩,
    fun h hh => by simp [destroyed] at hh, ⟨by simp, fun h hh => ?_⟩, ?_, fun _ => rfl⟩, rfl⟩
  · have h1 := Ft.unheld h
    have h2 := count_set_le t.pipelines k t.next h
    simp only [room, cur, List.count_cons, List.count_append, destroyed, List.filterMap_cons, List.filterMap_nil, List.count_nil,
      beq_iff_eq] at *
    by_cases c5 : h < t.next
    · rw [if_pos c5, if_pos (by omega)]; rw [if_neg (by omega)] at h2; omega
    · have := h1 (by omega)
      rw [if_neg c5]
      split at h2 <;> split <;> omega
  · have h1 := Ft.unheld h
    have h2 := count_set_le t.pipelines k t.next h
    simp only [cur, List.count_cons, List.count_append, beq_iff_eq] at *
    rw [if_neg (by omega)] at h2
    have := h1 (by omega)
    omega
  · intro h hh; simp [written] at hh

theorem moves_createIfNone {s s' : Pipe.St} (F : Fresh s) {i : Nat} (h : s.createIfNone i = some s') :
    ∃ E, Moves s s' E ∧ E.filterMap destroyed = [] := by
  simp only [Pipe.St.createIfNone, Option.bind_eq_bind, Option.bind_eq_some_iff] at h
  obtain ⟨k, -, x, -, h⟩ := h
  split at h
  · cases h; exact ⟨[], Moves.refl F, rfl⟩
  · exact moves_createPipeline F h

theorem moves_resetPipeline {s s' : Pipe.St} (F : Fresh s) {p i : Nat} (h : s.resetPipeline p i = some s') : Moves s s' [] := by
  simp only [Pipe.St.resetPipeline, Option.bind_eq_bind, Option.bind_eq_some_iff] at h
  obtain ⟨x, hx, h⟩ := h
  generalize (if s.pipelines.length = 1 then 0 else i) = k at hx h
  have key : Moves s (if x ≠ 0 then { s with queue := s.queue ++ [x], pipelines := s.pipelines.set k 0 } else s) [] := by
    by_cases h0 : x ≠ 0
    · rw [if_pos h0]
      obtain ⟨hk, ex⟩ := List.getElem?_eq_some_iff.1 hx
      refine ⟨by simp, by simp, fun h h1 => ?_, ⟨[x], rfl, by simpa using h0⟩,
        fun _ h => by simp at h, ⟨F.pos, fun h hh => ?_⟩, fun _ h => by simp at h, fun _ => rfl⟩
      · have h2 := count_set' s.pipelines k 0 h hk
        rw [if_neg (show ¬ 0 = h from fun e => h1 e.symm), ex] at h2
        simp only [room, cur, List.count_cons, List.count_append, List.filterMap_nil, List.count_nil, beq_iff_eq] at *
        split <;> omega
      · have h1 := F.unheld h
        simp only at hh
        have h3 := h1 hh
        have h2 := count_set' s.pipelines k 0 h hk
        have hp := F.pos
        rw [if_neg (show ¬ 0 = h by omega), ex] at h2
        simp only [cur, List.count_cons, List.count_append, List.count_nil, beq_iff_eq] at *
        omega
    · rw [if_neg h0]; exact Moves.refl F
  generalize (if x ≠ 0 then { s with queue := s.queue ++ [x], pipelines := s.pipelines.set k 0 } else s) = t at h key
  by_cases hp : p ≠ 0
  · rw [if_pos hp] at h
    by_cases hl : k < t.programs.length
    · rw [if_pos hl] at h
      obtain rfl := Option.some.inj h
      exact key.trans (moves_same key.fresh rfl rfl rfl rfl)
    · rw [if_neg hl] at h; cases h
  · rw [if_neg hp] at h
    obtain rfl := Option.some.inj h
    exact key

theorem moves_createSet {s s' : Pipe.St} (F : Fresh s) {i : Nat} (h : s.createDescriptorSet i = some s') :
    ∃ E, Moves s s' E ∧ E.filterMap destroyed = [] := by
  simp only [Pipe.St.createDescriptorSet, Option.bind_eq_bind, Option.bind_eq_some_iff] at h
  obtain ⟨x, hx, h⟩ := h
  split at h
  · cases h; exact ⟨[], Moves.refl F, rfl⟩
  · simp only [Option.bind_eq_some_iff, Option.pure_def, Option.some.injEq] at h
    obtain ⟨ws, -, h⟩ := h
    subst h
    have e1 : (ws.map (Ev.write s.next)).filterMap destroyed = [] := by
      induction ws with
      | nil => rfl
      | cons w ws ih => simp [destroyed]
    have e2 : ∀ h ∈ (ws.map (Ev.write s.next)).filterMap written, h = s.next := by
      intro h hh
      obtain ⟨w, hw, e⟩ := List.mem_filterMap.1 hh
      obtain ⟨w', -, rfl⟩ := List.mem_map.1 hw
      simpa [written] using e.symm
    have e3 : ∀ t, (ws.map (Ev.write s.next)).flatMap (used t) = [] := by
      intro t
      induction ws with
      | nil => rfl
      | cons w ws ih => simpa [used] using ih (by simpa [destroyed] using e1) (fun h hh => e2 h (by
          simp only [List.map_cons, List.filterMap_cons, written] at *; exact List.mem_cons_of_mem _ hh))
    refine ⟨_, ⟨rfl, by simp, fun h h0 => ?_, ⟨[], by simp⟩, fun h hh => ?_, ⟨by simp, fun h hh => ?_⟩, ?_, ?_⟩, ?_⟩
    · have h1 := F.unheld h
      have h2 := count_set_le s.sets i s.next h
      simp only [room, cur, List.count_cons, List.count_append, List.filterMap_cons, destroyed, e1, List.count_nil,
        beq_iff_eq] at *
      by_cases c5 : h < s.next
      · rw [if_pos c5, if_pos (by omega)]; rw [if_neg (by omega)] at h2; omega
      · have := h1 (by omega)
        rw [if_neg c5]
        split at h2 <;> split <;> omega
    · simp only [List.filterMap_cons, destroyed, e1] at hh
      cases hh
    · have h1 := F.unheld h
      have h2 := count_set_le s.sets i s.next h
      simp only [cur, List.count_cons, List.count_append, beq_iff_eq] at *
      rw [if_neg (by omega)] at h2
      have := h1 (by omega)
      omega
    · intro h hh
      simp only [List.filterMap_cons, written] at hh
      rw [e2 h hh]
      exact Nat.le_refl _
    · intro t
      rw [List.flatMap_cons, e3]; rfl
    · simp only [List.filterMap_cons, destroyed, e1]

theorem moves_cleanup {s : Pipe.St} (F : Fresh s) : ∃ E, Moves s s.cleanup E := by
  have count_zero : ∀ (l : List Nat) (h : Nat), h ≠ 0 → (l.map fun _ => 0).count h = 0 := by
    intro l h h0
    rw [List.count_eq_zero]
    intro hm
    obtain ⟨_, -, e⟩ := List.mem_map.1 hm
    exact h0 e.symm
  have dp : ∀ l : List Nat, (l.map Ev.destroyPipe).filterMap destroyed = l := by
    intro l
    induction l with
    | nil => rfl
    | cons a l ih => simp only [List.map_cons, List.filterMap_cons, destroyed]; rw [ih]
  have wp : ∀ l : List Nat, (l.map Ev.destroyPipe).filterMap written = [] := by
    intro l
    induction l with
    | nil => rfl
    | cons a l ih => simp only [List.map_cons, List.filterMap_cons, written]; exact ih
  have up : ∀ (t : Pipe.St) (l : List Nat), (l.map Ev.destroyPipe).flatMap (used t) = [] := by
    intro t l
    induction l with
    | nil => rfl
    | cons a l ih => simp only [List.map_cons, List.flatMap_cons, used]; simpa using ih
  refine ⟨(if s.pool ≠ 0 then [.destroyPool s.pool] else []) ++ ((s.pipelines.filter (· ≠ 0)).map .destroyPipe ++
      ((if s.layout ≠ 0 then [.destroyPipeLayout s.layout] else []) ++
      (if s.setLayout ≠ 0 then [.destroySetLayout s.setLayout] else []))),
    ⟨by simp only [Pipe.St.cleanup, List.append_assoc], Nat.le_refl _, fun h h0 => ?_, ⟨[], by simp [Pipe.St.cleanup]⟩,
    fun h hh => ?_, ⟨F.pos, fun h hh => ?_⟩, fun h hh => ?_, fun t => ?_⟩⟩
  · have c1 := count_zero s.pipelines h h0
    have c2 := count_zero s.sets h h0
    have fc : (s.pipelines.filter (· ≠ 0)).count h ≤ s.pipelines.count h := List.Sublist.count_le h (List.filter_sublist)
    have pc : ((if s.pool ≠ 0 then [Ev.destroyPool s.pool] else []).filterMap destroyed).count h
        ≤ if s.pool = h then 1 else 0 := by
      split
      · simp only [List.filterMap_cons, destroyed, List.filterMap_nil, List.count_cons, List.count_nil, beq_iff_eq]; omega
      · simp
    have lc : ((if s.layout ≠ 0 then [Ev.destroyPipeLayout s.layout] else []).filterMap destroyed).count h
        ≤ if s.layout = h then 1 else 0 := by
      split
      · simp only [List.filterMap_cons, destroyed, List.filterMap_nil, List.count_cons, List.count_nil, beq_iff_eq]; omega
      · simp
    have sc : ((if s.setLayout ≠ 0 then [Ev.destroySetLayout s.setLayout] else []).filterMap destroyed).count h
        ≤ if s.setLayout = h then 1 else 0 := by
      split
      · simp only [List.filterMap_cons, destroyed, List.filterMap_nil, List.count_cons, List.count_nil, beq_iff_eq]; omega
      · simp
    have h1 := F.unheld h
    have h00 : ¬ (0 = h) := fun e => h0 e.symm
    simp only [room, cur, Pipe.St.cleanup, List.count_cons, List.count_append, List.filterMap_append, dp, beq_iff_eq, c1, c2,
      if_neg h00] at *
    split
    · omega
    · have := h1 (by omega)
      omega
  · simp only [List.filterMap_append, List.mem_append, dp] at hh
    rcases hh with hh | hh | hh | hh
    · split at hh
      · rename_i hc; simp [destroyed] at hh; rw [hh]; exact hc
      · simp at hh
    · simpa using (List.mem_filter.1 hh).2
    · split at hh
      · rename_i hc; simp [destroyed] at hh; rw [hh]; exact hc
      · simp at hh
    · split at hh
      · rename_i hc; simp [destroyed] at hh; rw [hh]; exact hc
      · simp at hh
  · have h1 := F.unheld h hh
    have h0 : h ≠ 0 := by have := F.pos; simp only [Pipe.St.cleanup] at hh; omega
    have c1 := count_zero s.pipelines h h0
    have c2 := count_zero s.sets h h0
    have h00 : ¬ (0 = h) := fun e => h0 e.symm
    simp only [cur, Pipe.St.cleanup, List.count_cons, List.count_append, beq_iff_eq, c1, c2, if_neg h00] at *
    exact ⟨trivial, h1.2⟩
  · simp only [List.filterMap_append, List.mem_append, wp] at hh
    rcases hh with hh | hh | hh | hh
    · split at hh <;> simp [written] at hh
    · simp at hh
    · split at hh <;> simp [written] at hh
    · split at hh <;> simp [written] at hh
  · simp only [List.flatMap_append, up]
    have e1 : (if s.pool ≠ 0 then [Ev.destroyPool s.pool] else []).flatMap (used t) = [] := by split <;> rfl
    have e2 : (if s.layout ≠ 0 then [Ev.destroyPipeLayout s.layout] else []).flatMap (used t) = [] := by split <;> rfl
    have e3 : (if s.setLayout ≠ 0 then [Ev.destroySetLayout s.setLayout] else []).flatMap (used t) = [] := by split <;> rfl
    rw [e1, e2, e3]; rfl

/-- `recordInto`: what the command that binds uses is held. -/
theorem moves_recordInto {s s' : Pipe.St} (F : Fresh s) {i : Nat} (h : s.recordInto i = some s') :
    ∃ t E p l x, Moves s t E ∧ E.filterMap destroyed = [] ∧ cur s' = cur t ∧ s'.queue = t.queue ∧ s'.next = t.next
      ∧ s'.evs = t.evs ++ [.bind p l x] ∧ ∀ y ∈ [p, l, x, s'.pool, s'.setLayout], y ∈ cur s' := by
  simp only [Pipe.St.recordInto, Option.bind_eq_bind, Option.bind_eq_some_iff, Option.pure_def, Option.some.injEq] at h
  obtain ⟨t, ht, k, -, p, hp, x, hx, h⟩ := h
  obtain ⟨E, M, hE⟩ := moves_createSet F ht
  subst h
  refine ⟨t, E, p, t.layout, x, M, hE, rfl, rfl, rfl, rfl, ?_⟩
  intro y hy
  have h1 := List.mem_of_getElem? hp
  have h2 := List.mem_of_getElem? hx
  simp only [List.mem_cons, List.not_mem_nil, or_false] at hy
  simp only [cur, Pipe.St.emit, List.mem_cons, List.mem_append]
  rcases hy with rfl | rfl | rfl | rfl | rfl
  · exact Or.inr (Or.inr (Or.inr (Or.inl h1)))
  · exact Or.inr (Or.inl rfl)
  · exact Or.inr (Or.inr (Or.inr (Or.inr h2)))
  · exact Or.inr (Or.inr (Or.inl rfl))
  · exact Or.inl rfl

/-- A quad or mesh pass that prepares its objects takes a handle for the render pass, and goes on from there. -/
theorem moves_prepare {s s' : Pipe.St} (F : Fresh s) {k : Kind} {i : Nat} (h : s.prepare k i = some s') :
    ∃ E, Moves (if k = .compute then s else { s with next := s.next + 1 }) s' E ∧ (k = .compute → E.filterMap destroyed = []) := by
  have none_initialise : ∀ {u : Pipe.St}, Fresh u → ∃ E, Moves u u.initialise E ∧ E.filterMap destroyed = [] := by
    intro u Fu
    obtain ⟨E, M⟩ := moves_initialise Fu
    refine ⟨E, M, ?_⟩
    have := M.evs
    unfold Pipe.St.initialise at this
    split at this
    · have e := List.append_cancel_left this
      rw [← e]; rfl
    · have e : E = [] := by simpa using this
      rw [e]; rfl
  have fin : ∀ {u w : Pipe.St} (_ : Fresh u) {rp : Nat}, (if u.renderPass ≠ rp then u.resetRenderPass rp i else some u).bind
      (fun u => u.createIfNone i) = some w → ∃ E, Moves u w E := by
    intro u w Fu rp hw
    simp only [Option.bind_eq_some_iff] at hw
    obtain ⟨v, hv, hw⟩ := hw
    have : ∃ E, Moves u v E := by
      by_cases hr : u.renderPass ≠ rp
      · rw [if_pos hr] at hv
        simp only [Pipe.St.resetRenderPass, Option.bind_eq_bind, Option.bind_eq_some_iff] at hv
        obtain ⟨a, ha, hv⟩ := hv
        have M1 := moves_resetPipeline Fu ha
        have M2 : Moves a { a with renderPass := rp } [] := moves_same M1.fresh rfl rfl rfl rfl
        obtain ⟨E3, M3, -⟩ := moves_createIfNone M2.fresh hv
        exact ⟨_, (M1.trans M2).trans M3⟩
      · rw [if_neg hr] at hv
        obtain rfl := Option.some.inj hv
        exact ⟨[], Moves.refl Fu⟩
    obtain ⟨E1, M1⟩ := this
    obtain ⟨E2, M2, -⟩ := moves_createIfNone M1.fresh hw
    exact ⟨_, M1.trans M2⟩
  cases k with
  | compute =>
    simp only [Pipe.St.prepare] at h
    rw [if_pos rfl]
    obtain ⟨E1, M1, d1⟩ := none_initialise F
    obtain ⟨E2, M2, d2⟩ := moves_createPipeline M1.fresh h
    exact ⟨_, M1.trans M2, fun _ => by rw [List.filterMap_append, d1, d2]; rfl⟩
  | quad =>
    rw [if_neg (by decide)]
    have M0 := moves_next F
    simp only [Pipe.St.prepare] at h
    by_cases hv : s.vertexBuffer = false
    · rw [if_pos hv] at h
      obtain ⟨E1, M1, -⟩ := none_initialise M0.fresh
      have M2 : Moves ({ s with next := s.next + 1 } : Pipe.St).initialise
          { ({ s with next := s.next + 1 } : Pipe.St).initialise with vertexBuffer := true, renderPass := s.next } [] :=
        moves_same M1.fresh rfl rfl rfl rfl
      obtain ⟨E3, M3, -⟩ := moves_createIfNone M2.fresh h
      exact ⟨_, (M1.trans M2).trans M3, fun e => by cases e⟩
    · rw [if_neg hv] at h
      obtain ⟨E, M⟩ := fin M0.fresh h
      exact ⟨E, M, fun e => by cases e⟩
  | mesh =>
    rw [if_neg (by decide)]
    have M0 := moves_next F
    simp only [Pipe.St.prepare] at h
    obtain ⟨E1, M1⟩ := moves_cleanup M0.fresh
    obtain ⟨E2, M2, -⟩ := none_initialise M1.fresh
    have M12 := M1.trans M2
    generalize ({ s with next := s.next + 1 } : Pipe.St).cleanup.initialise = u at h M12
    by_cases hv : u.renderPass = 0
    · rw [if_pos hv] at h
      have M3 : Moves u { u with renderPass := s.next } [] := moves_same M12.fresh rfl rfl rfl rfl
      obtain ⟨E4, M4, -⟩ := moves_createIfNone M3.fresh h
      exact ⟨_, (M12.trans M3).trans M4, fun e => by cases e⟩
    · rw [if_neg hv] at h
      obtain ⟨E, M⟩ := fin M12.fresh h
      exact ⟨_, M12.trans M, fun e => by cases e⟩

/-- Recording a pass. -/
theorem moves_record {s s' : Pipe.St} (F : Fresh s) {k : Kind} {i : Nat} {fresh : Bool}
    (h : Pipe.exec k s (.record i fresh) = some s') :
    ∃ t E p l x, Moves (if fresh = true ∧ k ≠ .compute then { s with next := s.next + 1 } else s) t E
      ∧ (fresh = false ∨ k = .compute → E.filterMap destroyed = []) ∧ cur s' = cur t ∧ s'.queue = t.queue ∧ s'.next = t.next
      ∧ s'.evs = t.evs ++ [.bind p l x] ∧ ∀ y ∈ [p, l, x, s'.pool, s'.setLayout], y ∈ cur s' := by
  simp only [Pipe.exec, Option.bind_eq_some_iff] at h
  obtain ⟨a, ha, b, hb, h⟩ := h
  have k1 : ∃ E, Moves (if fresh = true ∧ k ≠ .compute then { s with next := s.next + 1 } else s) a E
      ∧ (fresh = false ∨ k = .compute → E.filterMap destroyed = []) := by
    cases fresh with
    | false =>
      rw [if_neg (by simp)] at ha
      obtain rfl := Option.some.inj ha
      exact ⟨[], by rw [if_neg (by simp)]; exact Moves.refl F, fun _ => rfl⟩
    | true =>
      rw [if_pos rfl] at ha
      obtain ⟨E, M, hd⟩ := moves_prepare F ha
      refine ⟨E, ?_, fun h => hd (h.resolve_left (by simp))⟩
      by_cases hk : k = .compute
      · rw [if_pos hk] at M; rw [if_neg (by simp [hk])]; exact M
      · rw [if_neg hk] at M; rw [if_pos ⟨rfl, hk⟩]; exact M
  obtain ⟨E1, M1, d1⟩ := k1
  have k2 : ∃ E, Moves a b E ∧ E.filterMap destroyed = [] := by
    by_cases hk : k = .compute
    · rw [if_pos hk] at hb
      obtain rfl := Option.some.inj hb
      exact ⟨[], Moves.refl M1.fresh, rfl⟩
    · rw [if_neg hk] at hb
      exact moves_createIfNone M1.fresh hb
  obtain ⟨E2, M2, d2⟩ := k2
  obtain ⟨t, E3, p, l, x, M3, d3, r⟩ := moves_recordInto M2.fresh h
  exact ⟨t, _, p, l, x, (M1.trans M2).trans M3, fun h => by
    rw [List.filterMap_append, List.filterMap_append, d1 h, d2, d3]; rfl, r⟩

/-- Changing the program of a pass destroys nothing. -/
theorem moves_reset {s s' : Pipe.St} (F : Fresh s) {k : Kind} {p i : Nat} (h : Pipe.exec k s (.reset p i) = some s') :
    ∃ E, Moves s s' E ∧ E.filterMap destroyed = [] := by
  simp only [Pipe.exec, Option.bind_eq_some_iff] at h
  obtain ⟨t, ht, h⟩ := h
  have M1 := moves_resetPipeline F ht
  by_cases hk : k = .compute
  · rw [if_pos hk] at h
    obtain ⟨E, M, d⟩ := moves_createPipeline M1.fresh h
    exact ⟨_, M1.trans M, by simpa using d⟩
  · rw [if_neg hk] at h
    by_cases hr : t.renderPass ≠ 0
    · rw [if_pos hr] at h
      obtain ⟨E, M, d⟩ := moves_createIfNone M1.fresh h
      exact ⟨_, M1.trans M, by simpa using d⟩
    · rw [if_neg hr] at h
      obtain rfl := Option.some.inj h
      exact ⟨_, M1, rfl⟩

end Verif.Flight
