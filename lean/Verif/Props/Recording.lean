import Verif.Props.Barriers
import Verif.Spec.Recording
/-
C11 (buffers), C15 (buffer barriers), C17 (implicit transitions), C45 (blit regions), C46 (implicit actions).
-/
namespace Verif.Gpu
open Verif.Rec

/-! ### C11, buffer part -/

/-- C11. Importing states: a buffer with a known state keeps it, another one gets the imported one. -/
theorem import_buffers (c d : Ctx) (b : Nat) :
    ((c.buffers b).isSome → (c.addStates d).getAccess b = c.getAccess b)
    ∧ (c.buffers b = none → (c.addStates d).getAccess b = d.getAccess b) := by
  constructor
  · intro h
    obtain ⟨x, hx⟩ := Option.isSome_iff_exists.1 h
    simp [Ctx.getAccess, Ctx.addStates, hx]
  · intro h
    simp [Ctx.getAccess, Ctx.addStates, h]

/-- C11. The previous pipeline state of a context that imports the states of dependencies is the own one or the last one
of a dependency, one whose accesses (as a number) are the greatest; the current and next states are not touched. -/
theorem import_previous_state (deps : List Ctx) : ∀ c : Ctx,
    (deps.foldl Ctx.addStates c).prev ∈ c.prev :: deps.map (·.curr)
    ∧ (∀ x ∈ c.prev :: deps.map (·.curr), x.access ≤ (deps.foldl Ctx.addStates c).prev.access)
    ∧ (deps.foldl Ctx.addStates c).curr = c.curr ∧ (deps.foldl Ctx.addStates c).next = c.next := by
  induction deps with
  | nil => intro c; exact ⟨by simp, by simp, rfl, rfl⟩
  | cons d deps ih =>
    intro c
    obtain ⟨h1, h2, h3, h4⟩ := ih (c.addStates d)
    simp only [List.foldl_cons]
    generalize hr : deps.foldl Ctx.addStates (c.addStates d) = r at h1 h2 h3 h4 ⊢
    have hp : (c.addStates d).prev = if c.prev.access < d.curr.access then d.curr else c.prev := rfl
    refine ⟨?_, ?_, h3, h4⟩
    · rw [hp] at h1
      simp only [List.mem_cons, List.map_cons] at h1 ⊢
      rcases h1 with h1 | h1
      · split at h1
        · exact .inr (.inl h1)
        · exact .inl h1
      · exact .inr (.inr h1)
    · intro x hx
      have h5 := h2 _ (List.mem_cons_self)
      rw [hp] at h5
      simp only [List.mem_cons, List.map_cons] at hx
      rcases hx with rfl | rfl | hx
      · split at h5 <;> omega
      · split at h5 <;> omega
      · exact h2 x (List.mem_cons_of_mem _ hx)

/-- C11. Importing several contexts in turn: a buffer's state comes from the first that knows it. -/
theorem import_buffers_first_wins (c : Ctx) (pre : List Ctx) (d : Ctx) (post : List Ctx) (b : Nat)
    (hc : c.buffers b = none) (hpre : ∀ x ∈ pre, x.buffers b = none) (hd : (d.buffers b).isSome) :
    ((pre ++ d :: post).foldl Ctx.addStates c).getAccess b = d.getAccess b := by
  have known : ∀ (l : List Ctx) (c : Ctx), (c.buffers b).isSome →
      (l.foldl Ctx.addStates c).buffers b = c.buffers b := by
    intro l
    induction l with
    | nil => intro c _; rfl
    | cons x xs ih =>
      intro c h
      obtain ⟨y, hy⟩ := Option.isSome_iff_exists.1 h
      have e : (c.addStates x).buffers b = c.buffers b := by simp [Ctx.addStates, hy]
      rw [List.foldl_cons, ih _ (by rw [e]; exact h), e]
  have unknown : ∀ (l : List Ctx) (c : Ctx), c.buffers b = none → (∀ x ∈ l, x.buffers b = none) →
      (l.foldl Ctx.addStates c).buffers b = none := by
    intro l
    induction l with
    | nil => intro c h _; exact h
    | cons x xs ih =>
      intro c h hx
      rw [List.foldl_cons]
      exact ih _ (by simp [Ctx.addStates, h, hx x (by simp)]) (fun y hy => hx y (by simp [hy]))
  have e1 := unknown pre c hc hpre
  rw [List.foldl_append, List.foldl_cons]
  have e2 : ((pre.foldl Ctx.addStates c).addStates d).buffers b = d.buffers b := by simp [Ctx.addStates, e1]
  unfold Ctx.getAccess
  rw [known post _ (by rw [e2]; exact hd), e2]

example : (Ctx.new.buffers 3 = none) ∧ ((Ctx.new.setAccess 3 ⟨1, 2⟩).buffers 3).isSome := by
  simp [Ctx.new, Ctx.setAccess]

/-! ### C15 -/

/-- The state a barrier on the buffer starts from: the state last set if it has a stage other than
BOTTOM_OF_PIPE, the initial one of the request otherwise. -/
def SourceState (c : Ctx) (q : BufRequest) (s : AccessState) : Prop :=
  (c.buffers q.buffer = some s ∧ s.stage ≠ Stage.bottomOfPipe)
  ∨ ((∀ t, c.buffers q.buffer = some t → t.stage = Stage.bottomOfPipe) ∧ s = q.initial)

theorem bufferBarrier_eq (r : Rec) (q : BufRequest) (s : AccessState) (hs : SourceState r.ctx q s) :
    bufRequest r q = if q.force = true ∨ s ≠ q.wanted then
      ⟨r.ctx.setAccess q.buffer q.wanted, r.cmds ++ [.bufferBarrier q.buffer q.offset q.size s q.wanted]⟩
      else r := by
  unfold bufRequest Rec.bufferBarrier
  have e : (if (r.ctx.getAccess q.buffer).stage = Stage.bottomOfPipe then q.initial
      else r.ctx.getAccess q.buffer) = s := by
    unfold Ctx.getAccess
    rcases hs with ⟨h1, h2⟩ | ⟨h1, h2⟩
    · simp [h1, h2]
    · cases hb : r.ctx.buffers q.buffer with
      | none => simp [bottom, h2]
      | some t => simp [h1 t hb, h2]
  simp only [e]
  have hne : s ≠ q.wanted ↔ (s.access ≠ q.wanted.access ∨ s.stage ≠ q.wanted.stage) := by
    rcases s with ⟨a, b⟩
    rcases h : q.wanted with ⟨c, d⟩
    simp
    omega
  by_cases hc : q.force = true ∨ s ≠ q.wanted
  · rw [if_pos hc, if_pos]
    · rfl
    · rw [hne] at hc; simpa using hc
  · rw [if_neg hc, if_neg]
    rw [hne] at hc; simpa using hc

/-- C15. A barrier is recorded exactly when forced or when the source state differs from the wanted one; it
is the only command and goes from the source state to the wanted one on the requested range. Otherwise nothing
changes. -/
theorem buffer_barrier_recorded_iff (r : Rec) (q : BufRequest) (s : AccessState) (hs : SourceState r.ctx q s) :
    ((q.force = true ∨ s ≠ q.wanted) → (bufRequest r q).cmds
      = r.cmds ++ [.bufferBarrier q.buffer q.offset q.size s q.wanted]
      ∧ (bufRequest r q).ctx.buffers q.buffer = some q.wanted)
    ∧ (¬ (q.force = true ∨ s ≠ q.wanted) → bufRequest r q = r) := by
  rw [bufferBarrier_eq r q s hs]
  constructor
  · intro h; rw [if_pos h]; simp [Ctx.setAccess]
  · intro h; rw [if_neg h]

/-- Every request has a source state, so the theorem above covers all of them. -/
theorem sourceState_exists (c : Ctx) (q : BufRequest) : ∃ s, SourceState c q s := by
  cases h : c.buffers q.buffer with
  | none => exact ⟨q.initial, Or.inr ⟨fun t ht => by rw [h] at ht; simp at ht, rfl⟩⟩
  | some t =>
    by_cases hb : t.stage = Stage.bottomOfPipe
    · exact ⟨q.initial, Or.inr ⟨fun u hu => by rw [h] at hu; simp at hu; rw [← hu]; exact hb, rfl⟩⟩
    · exact ⟨t, Or.inl ⟨h, hb⟩⟩

/-- C15, frame: other buffers, images and pending actions are unaffected. -/
theorem buffer_barrier_frame (r : Rec) (q : BufRequest) :
    (∀ b, b ≠ q.buffer → (bufRequest r q).ctx.buffers b = r.ctx.buffers b)
    ∧ (bufRequest r q).ctx.images = r.ctx.images ∧ (bufRequest r q).ctx.implicit = r.ctx.implicit := by
  obtain ⟨s, hs⟩ := sourceState_exists r.ctx q
  rw [bufferBarrier_eq r q s hs]
  split
  · refine ⟨fun b hb => by simp [Ctx.setAccess, hb], rfl, rfl⟩
  · exact ⟨fun _ _ => rfl, rfl, rfl⟩

/-- C15, history (partial: requests whose wanted state has a real stage and differs from their initial state, see
`buffer_untracked_not_remembered`). After any history the state known for a buffer is the one wanted by the
last request on it; with no request, nothing is known. -/
theorem buffer_last_wanted_partial (qs : List BufRequest)
    (h : ∀ q ∈ qs, q.wanted.stage ≠ Stage.bottomOfPipe ∧ q.initial ≠ q.wanted) (b : Nat) :
    (bufRequests start qs).ctx.buffers b = ((qs.filter (·.buffer == b)).getLast?).map (·.wanted) := by
  induction qs using snocInduction with
  | nil => rfl
  | snoc qs q ih =>
    have ih := ih (fun p hp => h p (by simp [hp]))
    have hq := h q (by simp)
    have e : bufRequests start (qs ++ [q]) = bufRequest (bufRequests start qs) q := by simp [bufRequests]
    rw [e, List.filter_append]
    by_cases hb : q.buffer = b
    · subst hb
      simp only [List.filter_cons, beq_self_eq_true, if_true, List.filter_nil, List.getLast?_append,
        List.getLast?_singleton, Option.some_or, Option.map_some]
      obtain ⟨s, hs⟩ := sourceState_exists (bufRequests start qs).ctx q
      have hr := buffer_barrier_recorded_iff _ q s hs
      by_cases hc : q.force = true ∨ s ≠ q.wanted
      · exact (hr.1 hc).2
      · rw [hr.2 hc]
        have hsw : s = q.wanted := Decidable.byContradiction fun hx => hc (Or.inr hx)
        rcases hs with ⟨h1, _⟩ | ⟨_, h2⟩
        · rw [h1, hsw]
        · exact absurd (h2.symm.trans hsw) hq.2
    · rw [(buffer_barrier_frame _ q).1 b (Ne.symm hb), ih]
      have : (q.buffer == b) = false := by simpa using hb
      simp [List.filter_cons, this]

def exB1 : BufRequest := ⟨3, 0, 64, bottom, ⟨Access.shaderWrite, Stage.computeShader⟩, false⟩
def exB2 : BufRequest := ⟨3, 0, 64, bottom, ⟨Access.shaderRead, Stage.fragmentShader⟩, false⟩

example : (∀ q ∈ [exB1, exB2], q.wanted.stage ≠ Stage.bottomOfPipe ∧ q.initial ≠ q.wanted)
    ∧ (bufRequests start [exB1, exB2]).cmds.length = 2 := by decide

/-- C15 is false in general: a request whose wanted state equals the initial one it gives records nothing and
leaves the buffer unknown, so the next barrier's source isn't that state. -/
theorem buffer_untracked_not_remembered :
    ∃ q, q.wanted.stage ≠ Stage.bottomOfPipe ∧ (bufRequest start q).ctx.buffers q.buffer = none :=
  ⟨⟨3, 0, 64, ⟨32, 128⟩, ⟨32, 128⟩, false⟩, by decide, by decide⟩

/-- The byte range `[o, o+n)` of a recorded buffer barrier covers byte `x`. -/
def CoversByte (c : Cmd) (b x : Nat) : Prop :=
  ∃ o n s d, c = .bufferBarrier b o n s d ∧ o ≤ x ∧ x < o + n

/-- C16 is false for ranges of one buffer: the state is tracked for the whole buffer, the barrier only covers the
requested range. Bytes [0,64) and [64,128) are written; requesting [64,128) for reading, then [0,64), records
no barrier towards reading that covers byte 0. -/
theorem buffer_ranges_confused :
    ∃ qs : List BufRequest, qs.map (fun q => (q.offset, q.size, q.wanted))
        = [(0, 128, ⟨Access.shaderWrite, Stage.computeShader⟩), (64, 64, ⟨Access.shaderRead, Stage.fragmentShader⟩),
          (0, 64, ⟨Access.shaderRead, Stage.fragmentShader⟩)]
      ∧ ∀ c ∈ (bufRequests start qs).cmds.drop 1, ¬ CoversByte c 3 0 := by
  refine ⟨[⟨3, 0, 128, bottom, ⟨Access.shaderWrite, Stage.computeShader⟩, false⟩,
    ⟨3, 64, 64, bottom, ⟨Access.shaderRead, Stage.fragmentShader⟩, false⟩,
    ⟨3, 0, 64, bottom, ⟨Access.shaderRead, Stage.fragmentShader⟩, false⟩], rfl, ?_⟩
  intro c hc
  have : c = .bufferBarrier 3 64 64 ⟨Access.shaderWrite, Stage.computeShader⟩
      ⟨Access.shaderRead, Stage.fragmentShader⟩ := by
    have e : (bufRequests start [⟨3, 0, 128, bottom, ⟨Access.shaderWrite, Stage.computeShader⟩, false⟩,
      ⟨3, 64, 64, bottom, ⟨Access.shaderRead, Stage.fragmentShader⟩, false⟩,
      ⟨3, 0, 64, bottom, ⟨Access.shaderRead, Stage.fragmentShader⟩, false⟩]).cmds.drop 1
      = [.bufferBarrier 3 64 64 ⟨Access.shaderWrite, Stage.computeShader⟩
        ⟨Access.shaderRead, Stage.fragmentShader⟩] := by decide
    rw [e] at hc
    simpa using hc
  subst this
  rintro ⟨o, n, s, d, he, h1, h2⟩
  simp at he
  omega

/-! ### C17 -/

theorem runImplicit_none (env : Env) (r : Rec) (v : View)
    (h : r.ctx.implicit.find? (Implicit.isFor v) = none) : r.runImplicit env v = r := by
  unfold Rec.runImplicit
  cases r.ctx.implicit.length with
  | zero => rfl
  | succ n => simp only [Rec.runImplicitN, h]

theorem runImplicit_some (env : Env) (r : Rec) (v : View) (t : Implicit)
    (h : r.ctx.implicit.find? (Implicit.isFor v) = some t) :
    r.runImplicit env v =
      let r1 : Rec := { r with ctx := { r.ctx with implicit := r.ctx.implicit.eraseP (Implicit.isFor v) } }
      if env.enabled t.pass then r1
      else match t.action with
        | .nothing => r1
        | .user k => r1.emit (.user k)
        | .copy src dst w h final => (Rec.runImplicit env r1 src).doCopy env src dst w h final
        | .blit src dst sx sy sw sh dx dy dw dh filter final =>
          (Rec.runImplicit env r1 src).doBlit env src dst sx sy sw sh dx dy dw dh filter final
        | .clear dst value final => r1.doClear env dst value final := by
  have hm := List.mem_of_find?_eq_some h
  have hlen := List.length_eraseP_of_mem hm (List.find?_some h)
  have hpos : 0 < r.ctx.implicit.length := List.length_pos_of_mem hm
  unfold Rec.runImplicit
  simp only [hlen]
  cases hn : r.ctx.implicit.length with
  | zero => omega
  | succ n =>
    simp only [Rec.runImplicitN, h, Nat.add_sub_cancel]
    split
    · rfl
    · cases t.action <;> rfl

/-- The oldest action pending for the view: `pre` are the earlier registrations, all for other views. -/
def OldestFor (v : View) (pend pre : List Implicit) (t : Implicit) (post : List Implicit) : Prop :=
  pend = pre ++ t :: post ∧ t.view.id = v.id ∧ ∀ u ∈ pre, u.view.id ≠ v.id

theorem oldest_find {v : View} {pend pre post : List Implicit} {t : Implicit}
    (h : OldestFor v pend pre t post) :
    pend.find? (Implicit.isFor v) = some t ∧ pend.eraseP (Implicit.isFor v) = pre ++ post := by
  obtain ⟨rfl, h1, h2⟩ := h
  have hn : ∀ u ∈ pre, Implicit.isFor v u = false := fun u hu => by simpa [Implicit.isFor] using h2 u hu
  constructor
  · rw [List.find?_append, List.find?_eq_none.2 (fun u hu => by rw [hn u hu]; simp)]
    simp [Implicit.isFor, h1]
  · rw [List.eraseP_append_right _ (by intro u hu; rw [hn u hu]; simp)]
    simp [Implicit.isFor, h1]

/-- C17. Using a view with nothing pending for it does nothing. -/
theorem use_without_pending (sepDS : Bool) (r : Rec) (v : View) (en : Nat → Bool)
    (h : ∀ t ∈ r.ctx.implicit, t.view.id ≠ v.id) : perform sepDS r (.use v en) = r := by
  apply runImplicit_none
  rw [List.find?_eq_none]
  intro t ht
  simpa [Implicit.isFor] using h t ht

/-- C17. Using a view whose oldest pending action belongs to an enabled pass just drops that action: nothing is
recorded, no state changes, and everything else stays pending in order. -/
theorem use_enabled_drops (sepDS : Bool) (r : Rec) (v : View) (en : Nat → Bool) (pre post : List Implicit)
    (t : Implicit) (h : OldestFor v r.ctx.implicit pre t post) (hen : en t.pass = true) :
    perform sepDS r (.use v en) = { r with ctx := { r.ctx with implicit := pre ++ post } } := by
  show Rec.runImplicit _ r v = _
  rw [runImplicit_some _ _ _ _ (oldest_find h).1, (oldest_find h).2]
  simp [hen]

/-- C17. Using a view whose oldest pending action is a user function of a disabled pass runs it once (its
commands are recorded), and everything else stays pending in order. -/
theorem use_disabled_runs (sepDS : Bool) (r : Rec) (v : View) (en : Nat → Bool) (pre post : List Implicit)
    (t : Implicit) (k : Nat) (h : OldestFor v r.ctx.implicit pre t post) (hen : en t.pass = false)
    (hk : t.action = .user k) :
    perform sepDS r (.use v en)
      = ⟨{ r.ctx with implicit := pre ++ post }, r.cmds ++ [.user k]⟩ := by
  show Rec.runImplicit _ r v = _
  rw [runImplicit_some _ _ _ _ (oldest_find h).1, (oldest_find h).2]
  simp [hen, hk, Rec.emit]

example : OldestFor ⟨7, bImg, .d2, 37, ⟨1, 0, 1, 0, 1⟩⟩
    [⟨0, ⟨8, bImg, .d2, 37, ⟨1, 1, 1, 0, 1⟩⟩, .user 4⟩, ⟨1, ⟨7, bImg, .d2, 37, ⟨1, 0, 1, 0, 1⟩⟩, .user 5⟩]
    [⟨0, ⟨8, bImg, .d2, 37, ⟨1, 1, 1, 0, 1⟩⟩, .user 4⟩] ⟨1, ⟨7, bImg, .d2, 37, ⟨1, 0, 1, 0, 1⟩⟩, .user 5⟩ [] :=
  ⟨rfl, rfl, by simp⟩

/-- Barriers don't run user functions and don't touch pending actions. -/
theorem viewBarrier_keeps (env : Env) (r : Rec) (v : View) (i : Nat) (w : LayoutState) (f : Bool) (k : Nat) :
    (r.viewBarrier env v i w f).ctx.implicit = r.ctx.implicit
    ∧ ranTimes k (r.viewBarrier env v i w f).cmds = ranTimes k r.cmds := by
  unfold Rec.viewBarrier
  obtain ⟨src, -, ⟨-, e⟩ | ⟨-, e⟩⟩ := imageBarrier_cases env r v.image v.viewType v.range i w f <;> rw [e]
  · refine ⟨rfl, ?_⟩
    unfold ranTimes
    rw [List.countP_append]
    simp
  · exact ⟨rfl, rfl⟩

theorem finalBarrier_keeps (env : Env) (r : Rec) (v : View) (f k : Nat) :
    (r.finalBarrier env v f).ctx.implicit = r.ctx.implicit
    ∧ ranTimes k (r.finalBarrier env v f).cmds = ranTimes k r.cmds := by
  unfold Rec.finalBarrier
  split
  · exact viewBarrier_keeps _ _ _ _ _ _ _
  · exact ⟨rfl, rfl⟩

theorem emit_keeps (r : Rec) (c : Cmd) (k : Nat) (hc : c ≠ .user k) :
    (r.emit c).ctx.implicit = r.ctx.implicit ∧ ranTimes k (r.emit c).cmds = ranTimes k r.cmds := by
  refine ⟨rfl, ?_⟩
  unfold ranTimes Rec.emit
  rw [List.countP_append]
  simp [hc]

theorem pending_find (k : Nat) (l : List Implicit) (p : Implicit → Bool) (t : Implicit)
    (h : l.find? p = some t) :
    pendingTimes k (l.eraseP p) + (if t.action = .user k then 1 else 0) = pendingTimes k l := by
  unfold pendingTimes
  induction l with
  | nil => simp at h
  | cons a l ih =>
    rw [List.find?_cons] at h
    by_cases hp : p a = true
    · simp [hp] at h
      subst h
      simp [hp, List.countP_cons]
    · simp [hp] at h
      have := ih h
      simp [hp, List.countP_cons]
      omega

theorem runImplicit_count (env : Env) (k : Nat) : ∀ (n : Nat) (r : Rec) (v : View),
    r.ctx.implicit.length = n →
    (r.runImplicit env v).ctx.implicit.Sublist r.ctx.implicit ∧
    ranTimes k (r.runImplicit env v).cmds + pendingTimes k (r.runImplicit env v).ctx.implicit
      ≤ ranTimes k r.cmds + pendingTimes k r.ctx.implicit := by
  intro n
  induction n using Nat.strongRecOn with
  | ind n ih =>
    intro r v hn
    cases hf : r.ctx.implicit.find? (Implicit.isFor v) with
    | none => rw [runImplicit_none _ _ _ hf]; exact ⟨List.Sublist.refl _, Nat.le_refl _⟩
    | some t =>
      rw [runImplicit_some _ _ _ _ hf]
      have hp := pending_find k _ _ _ hf
      have hlt := eraseP_lt hf
      have hsub : (r.ctx.implicit.eraseP (Implicit.isFor v)).Sublist r.ctx.implicit := List.eraseP_sublist
      simp only
      split
      · exact ⟨hsub, by simp only; omega⟩
      · split
        · exact ⟨hsub, by simp only; omega⟩
        · rename_i j hj
          refine ⟨hsub, ?_⟩
          simp only [Rec.emit, ranTimes, List.countP_append]
          rw [hj] at hp
          by_cases hjk : j = k
          · subst hjk; simp at hp ⊢; omega
          · simp [hjk] at hp ⊢; omega
        · rename_i src dst w h final hj
          obtain ⟨h1, h2⟩ := ih _ (by rw [← hn]; exact hlt)
            { r with ctx := { r.ctx with implicit := r.ctx.implicit.eraseP (Implicit.isFor v) } } src rfl
          unfold Rec.doCopy
          simp only
          generalize Rec.runImplicit env _ src = r2 at *
          rw [(finalBarrier_keeps _ _ _ _ k).1, (finalBarrier_keeps _ _ _ _ k).2, (emit_keeps _ _ k (by simp)).1,
            (emit_keeps _ _ k (by simp)).2, (viewBarrier_keeps _ _ _ _ _ _ k).1,
            (viewBarrier_keeps _ _ _ _ _ _ k).2, (viewBarrier_keeps _ _ _ _ _ _ k).1,
            (viewBarrier_keeps _ _ _ _ _ _ k).2]
          simp only at h1 h2
          exact ⟨h1.trans hsub, by omega⟩
        · rename_i src dst sx sy sw sh dx dy dw dh filter final hj
          obtain ⟨h1, h2⟩ := ih _ (by rw [← hn]; exact hlt)
            { r with ctx := { r.ctx with implicit := r.ctx.implicit.eraseP (Implicit.isFor v) } } src rfl
          unfold Rec.doBlit
          simp only
          generalize Rec.runImplicit env _ src = r2 at *
          rw [(finalBarrier_keeps _ _ _ _ k).1, (finalBarrier_keeps _ _ _ _ k).2, (emit_keeps _ _ k (by simp)).1,
            (emit_keeps _ _ k (by simp)).2, (viewBarrier_keeps _ _ _ _ _ _ k).1,
            (viewBarrier_keeps _ _ _ _ _ _ k).2, (viewBarrier_keeps _ _ _ _ _ _ k).1,
            (viewBarrier_keeps _ _ _ _ _ _ k).2]
          simp only at h1 h2
          exact ⟨h1.trans hsub, by omega⟩
        · rename_i dst value final hj
          unfold Rec.doClear
          simp only
          rw [(finalBarrier_keeps _ _ _ _ k).1, (finalBarrier_keeps _ _ _ _ k).2, (emit_keeps _ _ k (by simp)).1,
            (emit_keeps _ _ k (by simp)).2, (viewBarrier_keeps _ _ _ _ _ _ k).1,
            (viewBarrier_keeps _ _ _ _ _ _ k).2]
          exact ⟨hsub, by simp only; omega⟩

/-- C17. A use never adds or reorders pending actions. -/
theorem use_keeps_order (sepDS : Bool) (r : Rec) (v : View) (en : Nat → Bool) :
    (perform sepDS r (.use v en)).ctx.implicit.Sublist r.ctx.implicit :=
  (runImplicit_count ⟨sepDS, en⟩ 0 _ r v rfl).1

/-- C17, history: whatever the calls made and whichever passes are enabled at each of them, a registered action
runs at most once: the runs of `k` plus its pending registrations never exceed its registrations. -/
theorem implicit_at_most_once (sepDS : Bool) (cs : List Call) (k : Nat) :
    ranTimes k (performAll sepDS start cs).cmds + pendingTimes k (performAll sepDS start cs).ctx.implicit
      ≤ registeredTimes k cs := by
  induction cs using snocInduction with
  | nil => simp [performAll, start, ranTimes, pendingTimes, Ctx.new, registeredTimes]
  | snoc cs c ih =>
    have e : performAll sepDS start (cs ++ [c]) = perform sepDS (performAll sepDS start cs) c := by
      simp [performAll]
    rw [e]
    generalize performAll sepDS start cs = r at *
    have hr : registeredTimes k (cs ++ [c]) = registeredTimes k cs + registeredTimes k [c] := by
      simp only [registeredTimes, List.countP_append]
    rw [hr]
    cases c with
    | barrier v i w f =>
      show ranTimes k (r.viewBarrier _ v i w f).cmds + pendingTimes k (r.viewBarrier _ v i w f).ctx.implicit ≤ _
      rw [(viewBarrier_keeps _ _ _ _ _ _ k).1, (viewBarrier_keeps _ _ _ _ _ _ k).2]
      omega
    | buffer q =>
      show ranTimes k (bufRequest r q).cmds + pendingTimes k (bufRequest r q).ctx.implicit ≤ _
      rw [(buffer_barrier_frame r q).2.2]
      obtain ⟨s, hs⟩ := sourceState_exists r.ctx q
      rw [bufferBarrier_eq r q s hs]
      have : ranTimes k (if q.force = true ∨ s ≠ q.wanted then
          (⟨r.ctx.setAccess q.buffer q.wanted, r.cmds ++ [.bufferBarrier q.buffer q.offset q.size s q.wanted]⟩ : Rec)
          else r).cmds = ranTimes k r.cmds := by
        split
        · simp [ranTimes, List.countP_append]
        · rfl
      omega
    | register t =>
      have e1 : perform sepDS r (.register t) = r.register t := rfl
      have : pendingTimes k (r.register t).ctx.implicit
          = pendingTimes k r.ctx.implicit + registeredTimes k [.register t] := by
        simp [pendingTimes, Rec.register, registeredTimes, List.countP_append, List.countP_cons]
      have h2 : ranTimes k (r.register t).cmds = ranTimes k r.cmds := rfl
      rw [e1, this, h2]
      omega
    | use v en =>
      have := (runImplicit_count ⟨sepDS, en⟩ k _ r v rfl).2
      show ranTimes k (Rec.runImplicit _ r v).cmds + pendingTimes k (Rec.runImplicit _ r v).ctx.implicit ≤ _
      omega
    | work j =>
      have h2 : ranTimes k (r.emit (.work j)).cmds = ranTimes k r.cmds := by
        simp [ranTimes, Rec.emit, List.countP_append]
      show ranTimes k (r.emit (.work j)).cmds + pendingTimes k r.ctx.implicit ≤ _
      rw [h2]
      omega

/-- C17 is weaker than one might expect: with two actions registered for one view, one use runs only the oldest;
the other waits for the next use. -/
theorem second_registration_waits :
    let v : View := ⟨7, bImg, .d2, 37, ⟨1, 0, 1, 0, 1⟩⟩
    let r := performAll false start [.register ⟨0, v, .user 1⟩, .register ⟨1, v, .user 2⟩, .use v (fun _ => false)]
    r.cmds = [.user 1] ∧ r.ctx.implicit.map (·.action) = [.user 2] := by
  intro v r
  have e : r = perform false (performAll false start [.register ⟨0, v, .user 1⟩, .register ⟨1, v, .user 2⟩])
    (.use v (fun _ => false)) := rfl
  rw [e, use_disabled_runs false _ v (fun _ => false) [] [⟨1, v, .user 2⟩] ⟨0, v, .user 1⟩ 1 ⟨rfl, rfl, by simp⟩
    rfl rfl]
  exact ⟨rfl, rfl⟩

end Verif.Gpu
