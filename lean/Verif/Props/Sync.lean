import Verif.Spec.Sync
/-!
C31 (fences) and C43 (deferred destructions).
-/
namespace Verif.Sync

/-! ## Reasoning about calls in any interleaving with the GPU -/

/-- Every call of `cs` is allowed, and then `K` holds. -/
def SafeThen (ok : Dev → Call → Prop) : List Call → (Dev → Prop) → Dev → Prop
  | [], K, d => K d
  | c :: cs, K, d => ∀ d', Finishing d d' → ok d' c ∧ SafeThen ok cs K (d'.after c)

theorem safeThen_append {ok a b K d} :
    SafeThen ok (a ++ b) K d ↔ SafeThen ok a (SafeThen ok b K) d := by
  induction a generalizing d with
  | nil => rfl
  | cons c a ih => simp only [List.cons_append, SafeThen, ih]

theorem safeThen_mono {ok cs K K' d} (h : ∀ d, K d → K' d) (hs : SafeThen ok cs K d) :
    SafeThen ok cs K' d := by
  induction cs generalizing d with
  | nil => exact h _ hs
  | cons c cs ih => exact fun d' hf => ⟨(hs d' hf).1, ih (hs d' hf).2⟩

theorem safe_append {ok a b d} (h : SafeThen ok a (fun d => Safe ok d b) d) :
    Safe ok d (a ++ b) := by
  induction a generalizing d with
  | nil => exact h
  | cons c a ih => exact fun d' hf => ⟨(h d' hf).1, ih (h d' hf).2⟩

theorem Finishing.refl (d : Dev) : Finishing d d := ⟨rfl, fun _ => .inl ⟨rfl, rfl⟩⟩

theorem Finishing.pending_none {d d'} (h : Finishing d d') {g} (hp : d.pending g = none) :
    d'.pending g = none ∧ d'.signaled g = d.signaled g := by
  rcases h.2 g with h | h
  · exact ⟨h.1.trans hp, h.2⟩
  · exact absurd hp h.1

theorem Finishing.alive {d d'} (h : Finishing d d') {g}
    (hp : d.pending g ≠ none ∨ d.signaled g = true) :
    d'.pending g ≠ none ∨ d'.signaled g = true := by
  rcases h.2 g with h | h
  · rw [h.1, h.2]; exact hp
  · exact .inr h.2.2

/-! ## C31 -/

/-- What the library's flags, the user's discipline and the device have to do with each other. -/
def FInv (p : Nat → Prot) (w : Nat → Bool) (d : Dev) : Prop :=
  ∀ g, ((p g).needSubmit = true → d.pending g = none ∧ d.signaled g = false ∧
      (w g = true → (p g).timed = true)) ∧
    ((p g).needSubmit = false → d.pending g ≠ none ∨ d.signaled g = true) ∧
    (w g = true → (p g).timed = false → d.pending g = none)

theorem FInv.finishing {p s d d'} (h : FInv p s d) (hf : Finishing d d') : FInv p s d' := by
  intro g
  obtain ⟨h1, h2, h3⟩ := h g
  refine ⟨fun hn => ?_, fun hn => hf.alive (h2 hn), fun hw ht => (hf.pending_none (h3 hw ht)).1⟩
  have := hf.pending_none (h1 hn).1
  exact ⟨this.1, this.2.trans (h1 hn).2.1, (h1 hn).2.2⟩

theorem FInv.waitForever {p w d} (h : FInv p w d) (g : Nat) :
    FInv (setAt p g {}) (setAt w g true) (d.after (.waitForever g)) := by
  intro k
  by_cases hk : k = g
  · subst hk; simp [setAt, Dev.after]
  · simpa [setAt, Dev.after, hk] using h k

theorem FInv.reset {p w d} (h : FInv p w d) {g : Nat} (hp : d.pending g = none) :
    FInv (setAt p g { needSubmit := true }) (setAt w g false) (d.after (.resetFence g)) := by
  intro k
  by_cases hk : k = g
  · subst hk; simpa [setAt, Dev.after] using hp
  · simpa [setAt, Dev.after, hk] using h k

theorem FInv.submit {p w d} (h : FInv p w d) {g : Nat} (uses : List Nat)
    (hn : (p g).needSubmit = true) :
    FInv (setAt p g { p g with needSubmit := false }) w (d.after (.submit g uses)) := by
  intro k
  by_cases hk : k = g
  · subst hk
    have := ((h k).1 hn).2.2
    refine ⟨by simp [setAt], by simp [Dev.after], fun hw ht => ?_⟩
    simp [setAt, this hw] at ht
  · simpa [setAt, Dev.after, hk] using h k

theorem setWaited_waited (s : St) (g : Nat) (b : Bool) :
    (s.setWaited g b).waited = setAt s.waited g b := rfl

theorem setAt_setAt {α : Type} (f : Nat → α) (g : Nat) (a b : α) :
    setAt (setAt f g a) g b = setAt f g b := by
  funext h; by_cases hg : h = g <;> simp [setAt, hg]

theorem setAt_self {α : Type} (f : Nat → α) (g : Nat) (a : α) : setAt f g a g = a := by simp [setAt]

/-- The destructions don't matter to fences. -/
theorem destroys_fences {p w d} (xs : List Nat) (h : FInv p w d) :
    SafeThen FenceOk (xs.map .destroy) (FInv p w) d := by
  induction xs generalizing d with
  | nil => exact h
  | cons x xs ih =>
    exact fun d' hf => ⟨trivial, ih (d := d'.after (.destroy x)) (FInv.finishing (d' := d') h hf)⟩

theorem step_fences {p s d o os} (hi : FInv p s.waited d) (hd : Disciplined p (o :: os)) :
    ∃ p', Disciplined p' os ∧
      SafeThen FenceOk (step s o).2 (FInv p' (step s o).1.waited) d := by
  cases o with
  | wait g =>
    exact ⟨_, hd.2, fun d' hf => ⟨hf.alive ((hi g).2.1 hd.1), (hi.finishing hf).waitForever g⟩⟩
  | waitFor g =>
    refine ⟨_, hd, fun d' hf => ⟨trivial, fun h => ?_⟩⟩
    have := (hi.finishing hf) h
    by_cases hg : h = g
    · subst hg
      simp only [setAt, step, fenceWait, St.setWaited, Dev.after, if_true]
      exact ⟨fun hn => ⟨(this.1 hn).1, (this.1 hn).2.1, fun _ => trivial⟩, this.2.1, by simp⟩
    · simpa [setAt, step, fenceWait, St.setWaited, Dev.after, hg] using this
  | reset g =>
    obtain ⟨h1, h2, h3⟩ := hd
    refine ⟨_, h3, ?_⟩
    cases hw : s.waited g with
    | true =>
      simp only [step, fenceReset, hw, if_true, List.nil_append]
      intro d' hf
      have hg := ((hi.finishing hf) g).2.2 hw h2
      exact ⟨hg, (hi.finishing hf).reset hg⟩
    | false =>
      simp only [step, fenceReset, hw, fenceWait, if_true, Bool.false_eq_true, if_false]
      intro d' hf
      refine ⟨hf.alive ((hi g).2.1 h1), fun d'' hf2 => ?_⟩
      have hi2 := ((hi.finishing hf).waitForever g).finishing hf2
      have hp : d''.pending g = none := (hi2 g).2.2 (by simp [setAt]) (by simp [setAt])
      refine ⟨hp, ?_⟩
      have := hi2.reset hp
      rw [setAt_setAt, setAt_setAt] at this
      simpa [SafeThen, setWaited_waited, setAt_setAt] using this
  | submit g uses =>
    refine ⟨_, hd.2, fun d' hf => ?_⟩
    have hg := ((hi.finishing hf) g).1 hd.1
    exact ⟨⟨hg.1, hg.2.1⟩, (hi.finishing hf).submit uses hd.1⟩
  | push x => exact ⟨p, hd, hi⟩
  | record g xs =>
    refine ⟨_, hd.2, fun d' hf => ⟨hf.alive ((hi g).2.1 hd.1), fun d'' hf2 => ?_⟩⟩
    have hi2 := ((hi.finishing hf).waitForever g).finishing hf2
    exact ⟨(hi2 g).2.2 (by simp [setAt]) (by simp [setAt]), hi2⟩
  | run g uses xs =>
    refine ⟨_, hd.2, ?_⟩
    have e : (step s (.run g uses xs)).2 =
        [.waitForever g, .resetCmd g, .resetFence g] ++
          ((s.queue ++ xs).map .destroy ++ [.submit g uses]) := by
      simp [step, run, record, fenceReset, fenceWait, clear, push, St.setWaited]
    have ew : (step s (.run g uses xs)).1.waited = setAt s.waited g false := by
      simp [step, run, record, fenceReset, fenceWait, clear, push, St.setWaited]
      funext h; by_cases hg : h = g <;> simp [hg, setAt]
    rw [e, ew]
    intro d' hf
    refine ⟨hf.alive ((hi g).2.1 hd.1), fun d2 hf2 => ?_⟩
    have hi2 := ((hi.finishing hf).waitForever g).finishing hf2
    refine ⟨(hi2 g).2.2 (by simp [setAt]) (by simp [setAt]), fun d3 hf3 => ?_⟩
    have hi3 := hi2.finishing hf3
    have hp : d3.pending g = none := (hi3 g).2.2 (by simp [setAt]) (by simp [setAt])
    refine ⟨hp, ?_⟩
    have hi4 := hi3.reset hp
    rw [setAt_setAt, setAt_setAt] at hi4
    show SafeThen FenceOk ((s.queue ++ xs).map .destroy ++ [.submit g uses]) _ _
    rw [safeThen_append]
    refine safeThen_mono (fun d5 hi5 d6 hf6 => ?_) (destroys_fences (s.queue ++ xs) hi4)
    have hi6 := hi5.finishing hf6
    have hn : (setAt p g { needSubmit := true } g).needSubmit = true := by rw [setAt_self]
    have hg := (hi6 g).1 hn
    refine ⟨⟨hg.1, hg.2.1⟩, ?_⟩
    have := hi6.submit uses hn
    simpa [SafeThen, setAt_setAt, setAt_self] using this

theorem exec_fences {p s d ops} (hi : FInv p s.waited d) (hd : Disciplined p ops) :
    Safe FenceOk d (exec s ops).2 := by
  induction ops generalizing p s d with
  | nil => trivial
  | cons o os ih =>
    obtain ⟨p', hd', hs⟩ := step_fences hi hd
    exact safe_append (safeThen_mono (fun d hi => ih hi hd') hs)

/-- **C31** (partial): any number of graphs, any disciplined program: whatever the GPU has finished
when a call is made, no fence and no command buffer is reset while in flight, every submission has
a reset fence, and no wait is for ever.  Missing: user resets after a wait that timed out
(`reset_after_timeout`), and waits on a fence the user reset (`wait_after_reset_hangs`). -/
theorem fences_respected_partial (ops : List Op) (h : Disciplined (fun _ => {}) ops) :
    Safe FenceOk Dev.init (exec St.init ops).2 :=
  exec_fences (p := fun _ => {}) (fun g => by simp [Dev.init, St.init]) h

theorem disciplined_of_plain {ops : List Op} {p : Nat → Prot} (h : ∀ o ∈ ops, Plain o)
    (hp : ∀ g, (p g).needSubmit = false) : Disciplined p ops := by
  induction ops generalizing p with
  | nil => trivial
  | cons o os ih =>
    have ht : ∀ o ∈ os, Plain o := fun o ho => h o (List.mem_cons_of_mem _ ho)
    have hs : ∀ g b, ∀ k, (setAt p g { needSubmit := false, timed := b } k).needSubmit = false := by
      intro g b k; by_cases hk : k = g <;> simp [setAt, hk, hp]
    have ho := h o List.mem_cons_self
    cases o with
    | wait g => exact ⟨hp g, ih ht (hs g _)⟩
    | waitFor g => exact ih ht (by have := hs g true; simpa [hp g] using this)
    | reset g => exact ho.elim
    | submit g u => exact ho.elim
    | push x => exact ih ht hp
    | record g xs => exact ⟨hp g, ih ht (hs g _)⟩
    | run g u xs => exact ⟨hp g, ih ht (hs g _)⟩

/-- **C31**: programs that only run, record, wait (with any timeout) and schedule destructions, over
any number of graphs, need no discipline at all. -/
theorem plain_programs_respect_fences (ops : List Op) (h : ∀ o ∈ ops, Plain o) :
    Safe FenceOk Dev.init (exec St.init ops).2 :=
  fences_respected_partial ops (disciplined_of_plain h fun _ => rfl)

/-- Two graphs run in turn, with finite waits, user resets and user submissions. -/
def exampleOps : List Op :=
  [.run 0 [1, 2] [3], .run 1 [4] [], .waitFor 0, .wait 1, .reset 1, .submit 1 [4], .push 2,
   .record 0 [], .run 0 [1] [], .reset 0, .submit 0 []]

theorem example_disciplined : Disciplined (fun _ => {}) exampleOps := by
  simp [Disciplined, exampleOps, setAt]

/-- Executions in which the GPU finishes nothing on its own. -/
theorem Safe.lazy {ok d c cs} (h : Safe ok d (c :: cs)) : ok d c ∧ Safe ok (d.after c) cs :=
  h d (Finishing.refl d)

/-- **Negation**: `wait` with a timeout that expires marks the fence as waited for; `reset()` then
doesn't wait, and resets the fence of a submission in flight. -/
theorem reset_after_timeout (g : Nat) (uses pushed : List Nat) :
    ¬ Safe FenceOk Dev.init (exec St.init [.run g uses pushed, .waitFor g, .reset g]).2 := by
  intro h
  have e : (exec St.init [.run g uses pushed, .waitFor g, .reset g]).2 =
      [.waitForever g, .resetCmd g, .resetFence g] ++ pushed.map .destroy ++
        [.submit g uses, .waitFor g, .resetFence g] := by
    simp [exec, step, run, record, fenceReset, fenceWait, clear, push, St.setWaited, St.init]
  rw [e] at h
  have drop : ∀ (xs : List Nat) (d : Dev) (cs : List Call),
      Safe FenceOk d (xs.map .destroy ++ cs) → ∃ d', Safe FenceOk d' cs := by
    intro xs
    induction xs with
    | nil => exact fun d cs h => ⟨d, h⟩
    | cons x xs ih => exact fun d cs h => ih _ _ (Safe.lazy h).2
  have h3 := h.lazy.2.lazy.2.lazy.2
  obtain ⟨d', h4⟩ := drop _ _ _ h3
  have := h4.lazy.2.lazy.2.lazy.1
  simp [FenceOk, Dev.after] at this

/-- **Negation**: a fence the user reset, and with which nothing is submitted, is waited for without
limit by the next `record` or `run`: it never returns. -/
theorem wait_after_reset_hangs (g : Nat) (pushed : List Nat) :
    ¬ Safe FenceOk Dev.init (exec St.init [.reset g, .record g pushed]).2 := by
  intro h
  have e : (exec St.init [.reset g, .record g pushed]).2 =
      [.waitForever g, .resetFence g, .waitForever g, .resetCmd g] := by
    simp [exec, step, record, fenceReset, fenceWait, push, St.setWaited, St.init]
  rw [e] at h
  have := h.lazy.2.lazy.2.lazy.1
  simp [FenceOk, Dev.after] at this

/-! ## C43 -/

theorem destroys_append (a b : List Call) : destroys (a ++ b) = destroys a ++ destroys b := by
  simp [destroys]

theorem destroys_map (xs : List Nat) : destroys (xs.map .destroy) = xs := by
  induction xs with
  | nil => rfl
  | cons x xs ih => simpa [destroys] using ih

theorem pushes_cons (o : Op) (os : List Op) : pushes (o :: os) = pushes [o] ++ pushes os := by
  cases o <;> simp [pushes]

theorem step_destroys (s : St) (o : Op) :
    destroys (step s o).2 ++ (step s o).1.queue = s.queue ++ pushes [o] := by
  cases o with
  | run g u xs =>
    have : (step s (.run g u xs)).2 = [.waitForever g, .resetCmd g, .resetFence g] ++
          ((s.queue ++ xs).map .destroy ++ [.submit g u]) := by
      simp [step, run, record, fenceReset, fenceWait, clear, push, St.setWaited]
    rw [this, destroys_append, destroys_append, destroys_map]
    simp [destroys, pushes, step, run, clear]
  | reset g =>
    simp only [step, fenceReset, destroys_append]
    split <;> simp [destroys, pushes, fenceWait, St.setWaited]
  | _ => simp [step, fenceWait, record, push, destroys, pushes, St.setWaited]

theorem exec_destroys (s : St) (ops : List Op) :
    destroys (exec s ops).2 ++ (exec s ops).1.queue = s.queue ++ pushes ops := by
  induction ops generalizing s with
  | nil => simp [exec, destroys, pushes]
  | cons o os ih =>
    simp only [exec, destroys_append, List.append_assoc]
    rw [ih, ← List.append_assoc, step_destroys, pushes_cons o os, List.append_assoc]

/-- **C43**: whatever the program, the destructions executed are the first ones scheduled, in order,
each as often as scheduled; the others wait in the queue. -/
theorem destroyed_in_order (ops : List Op) :
    ∃ rest, destroys (exec St.init ops).2 ++ rest = pushes ops :=
  ⟨_, by simpa [St.init] using exec_destroys St.init ops⟩

theorem exec_append (s : St) (a b : List Op) :
    exec s (a ++ b) = ((exec (exec s a).1 b).1, (exec s a).2 ++ (exec (exec s a).1 b).2) := by
  induction a generalizing s with
  | nil => simp [exec]
  | cons o os ih => simp [exec, ih]

/-- **C43**: once a graph has run, everything scheduled before has been destroyed. -/
theorem run_destroys_all (ops : List Op) (g : Nat) (uses pushed : List Nat) :
    destroys (exec St.init (ops ++ [.run g uses pushed])).2 =
      pushes (ops ++ [.run g uses pushed]) := by
  have := exec_destroys St.init (ops ++ [.run g uses pushed])
  have hq : (exec St.init (ops ++ [.run g uses pushed])).1.queue = [] := by
    simp [exec_append, exec, step, run, clear]
  rw [hq] at this
  simpa [St.init] using this

/-- **Negation**: the destructions scheduled after the last run are never executed (`~GraphContext`
doesn't clear the queue). -/
theorem scheduled_after_last_run_never (ops : List Op) (x : Nat)
    (h : x ∉ pushes ops) : x ∉ destroys (exec St.init (ops ++ [.push x])).2 := by
  have := exec_destroys St.init ops
  simp only [exec_append, exec, step, destroys_append]
  intro hx
  simp [destroys] at hx
  apply h
  have hm : x ∈ destroys (exec St.init ops).2 := by simpa [destroys] using hx
  have : x ∈ St.init.queue ++ pushes ops := by rw [← this]; exact List.mem_append_left _ hm
  simpa [St.init] using this

/-- The state of the queue and of the device while objects are scheduled and destroyed.
`gone`: all scheduled so far. -/
def DInv (gone busy : List Nat) (queue : List Nat) (d : Dev) : Prop :=
  (∀ x ∈ queue, x ∉ d.destroyed) ∧ queue.Nodup ∧ (∀ x ∈ d.destroyed, x ∈ gone) ∧
  (∀ x ∈ queue, x ∈ gone) ∧ (∀ g, d.pending g ≠ none → g ∈ busy)

theorem DInv.finishing {gone busy q d d'} (h : DInv gone busy q d) (hf : Finishing d d') :
    DInv gone busy q d' := by
  obtain ⟨h1, h2, h3, h4, h5⟩ := h
  refine ⟨by rw [hf.1]; exact h1, h2, by rw [hf.1]; exact h3, h4, fun g hg => h5 g fun hn => ?_⟩
  exact hg (hf.pending_none hn).1

theorem destroys_objects {gone q d} (h : DInv gone [] q d) :
    SafeThen DestroyOk (q.map .destroy) (DInv gone [] []) d := by
  induction q generalizing d with
  | nil => exact h
  | cons x q ih =>
    intro d' hf
    obtain ⟨h1, h2, h3, h4, h5⟩ := h.finishing hf
    rw [List.nodup_cons] at h2
    refine ⟨⟨h1 x List.mem_cons_self, fun g u hg => ?_⟩, ih ⟨fun y hy => ?_, h2.2, fun y hy => ?_,
      fun y hy => h4 y (List.mem_cons_of_mem _ hy), h5⟩⟩
    · have := h5 g (by simp [hg]); simp at this
    · simp only [Dev.after, List.mem_cons, not_or]
      exact ⟨fun e => h2.1 (e ▸ hy), h1 y (List.mem_cons_of_mem _ hy)⟩
    · simp only [Dev.after, List.mem_cons] at hy
      rcases hy with rfl | hy
      · exact h4 y List.mem_cons_self
      · exact h3 y hy

theorem DInv.push {gone busy q d} (h : DInv gone busy q d) (xs : List Nat)
    (hn : (gone ++ xs).Nodup) : DInv (gone ++ xs) busy (q ++ xs) d := by
  obtain ⟨h1, h2, h3, h4, h5⟩ := h
  rw [List.nodup_append] at hn
  refine ⟨fun x hx hd => ?_, ?_, fun x hx => List.mem_append_left _ (h3 x hx), fun x hx => ?_, h5⟩
  · rcases List.mem_append.mp hx with hx | hx
    · exact h1 x hx hd
    · exact hn.2.2 x (h3 x hd) x hx rfl
  · rw [List.nodup_append]
    exact ⟨h2, hn.2.1, fun a ha b hb => hn.2.2 a (h4 a ha) b hb⟩
  · rcases List.mem_append.mp hx with hx | hx
    · exact List.mem_append_left _ (h4 x hx)
    · exact List.mem_append_right _ hx

theorem DInv.waitForever {gone busy q d} (h : DInv gone busy q d) (g : Nat) :
    DInv gone (busy.filter (· != g)) q (d.after (.waitForever g)) := by
  obtain ⟨h1, h2, h3, h4, h5⟩ := h
  refine ⟨h1, h2, h3, h4, fun k hk => ?_⟩
  by_cases hkg : k = g
  · simp [Dev.after, hkg] at hk
  · simp only [Dev.after, hkg, if_false] at hk
    simp [h5 k hk, hkg]

theorem DInv.submit {gone busy q d} (h : DInv gone busy q d) (g : Nat) (uses : List Nat) :
    DInv gone (g :: busy) q (d.after (.submit g uses)) := by
  obtain ⟨h1, h2, h3, h4, h5⟩ := h
  refine ⟨h1, h2, h3, h4, fun k hk => ?_⟩
  by_cases hkg : k = g
  · simp [hkg]
  · simp only [Dev.after, hkg, if_false] at hk
    exact List.mem_cons_of_mem _ (h5 k hk)

theorem exec_objects {gone busy s d ops} (hi : DInv gone busy s.queue d)
    (hn : (gone ++ pushes ops).Nodup) (hu : NotUsedAfter gone ops) (ho : OneAtATime busy ops) :
    Safe DestroyOk d (exec s ops).2 := by
  induction ops generalizing gone busy s d with
  | nil => trivial
  | cons o os ih =>
    cases o with
    | wait g =>
      exact fun d' hf => ⟨trivial, ih (s := s.setWaited g true) ((hi.finishing hf).waitForever g) hn hu ho⟩
    | waitFor g =>
      exact fun d' hf => ⟨trivial, ih (s := s.setWaited g true) (hi.finishing hf) hn hu ho⟩
    | reset g =>
      cases hw : s.waited g with
      | true =>
        simp only [exec, step, fenceReset, hw, if_true, List.nil_append]
        exact fun d' hf => ⟨trivial, ih (s := s.setWaited g false) (d := d'.after (.resetFence g))
          (DInv.finishing (d' := d') hi hf) hn hu ho⟩
      | false =>
        simp only [exec, step, fenceReset, hw, fenceWait, if_true, Bool.false_eq_true, if_false]
        refine fun d' hf => ⟨trivial, fun d2 hf2 => ⟨trivial, ?_⟩⟩
        refine ih (s := (s.setWaited g true).setWaited g false) (gone := gone) (busy := busy) ?_ hn hu ho
        have := ((hi.finishing hf).waitForever g).finishing hf2
        obtain ⟨h1, h2, h3, h4, h5⟩ := this
        exact ⟨h1, h2, h3, h4, fun k hk => (List.mem_filter.mp (h5 k hk)).1⟩
    | submit g uses =>
      intro d' hf
      have hi' := hi.finishing hf
      exact ⟨fun x hx hd => hu.1 x hx (hi'.2.2.1 x hd), ih (hi'.submit g uses) hn hu.2 ho⟩
    | push x =>
      have hn' : (gone ++ [x] ++ pushes os).Nodup := by simpa [pushes] using hn
      exact ih (s := push [x] s) (hi.push [x] (List.nodup_append.mp hn').1) hn' hu ho
    | record g xs =>
      have hn' : (gone ++ xs ++ pushes os).Nodup := by simpa [pushes] using hn
      refine fun d' hf => ⟨trivial, fun d2 hf2 => ⟨trivial, ?_⟩⟩
      have := ((hi.finishing hf).waitForever g).finishing hf2
      exact ih (s := push xs (s.setWaited g true))
        (this.push xs (List.nodup_append.mp hn').1) hn' hu ho
    | run g uses xs =>
      have hn' : (gone ++ xs ++ pushes os).Nodup := by simpa [pushes] using hn
      have e : (step s (.run g uses xs)).2 =
          [.waitForever g, .resetCmd g, .resetFence g] ++
            ((s.queue ++ xs).map .destroy ++ [.submit g uses]) := by
        simp [step, run, record, fenceReset, fenceWait, clear, push, St.setWaited]
      have eq : (step s (.run g uses xs)).1.queue = [] := by
        simp [step, run, clear]
      simp only [exec]
      rw [e]
      refine safe_append ?_
      rw [safeThen_append]
      have hb : busy.filter (· != g) = [] := by
        rw [List.filter_eq_nil_iff]; intro h hh; simp [ho.1 h hh]
      intro d' hf
      refine ⟨trivial, fun d2 hf2 => ⟨trivial, fun d3 hf3 => ⟨trivial, ?_⟩⟩⟩
      have h3 := (((hi.finishing hf).waitForever g).finishing hf2).finishing hf3
      rw [hb] at h3
      have h4 := h3.push xs (List.nodup_append.mp hn').1
      show SafeThen DestroyOk (_ ++ _) _ _
      rw [safeThen_append]
      refine safeThen_mono (fun d5 h5 d6 hf6 => ?_)
        (destroys_objects (d := Dev.after d3 (.resetFence g)) h4)
      have h6 := h5.finishing hf6
      refine ⟨fun x hx hd => hu.1 x hx (h6.2.2.1 x hd), ?_⟩
      exact ih (by rw [eq]; exact h6.submit g uses) hn' hu.2 ho.2

/-- **C43** (partial): if each object is scheduled once, not used afterwards, and a graph is run
only when the others have been waited for (in particular with a single graph), then every
destruction happens when no submission in flight uses the object, and no later submission uses it.
Missing: graphs in flight together (`other_graph_destroys`), and objects used by the commands being
recorded (`destroyed_before_submission`). -/
theorem destruction_safe_partial (ops : List Op) (hn : (pushes ops).Nodup)
    (hu : NotUsedAfter [] ops) (ho : OneAtATime [] ops) :
    Safe DestroyOk Dev.init (exec St.init ops).2 :=
  exec_objects (gone := []) (busy := [])
    ⟨by simp [St.init], by simp [St.init], by simp [Dev.init], by simp [St.init],
      by simp [Dev.init]⟩ (by simpa using hn) hu ho

theorem oneAtATime_single {ops : List Op} {busy : List Nat} (g : Nat) (hb : ∀ h ∈ busy, h = g)
    (h : ∀ o ∈ ops, ∀ k, (∃ u x, o = .run k u x) ∨ (∃ u, o = .submit k u) → k = g) :
    OneAtATime busy ops := by
  induction ops generalizing busy with
  | nil => trivial
  | cons o os ih =>
    have ht : ∀ o ∈ os, ∀ k, (∃ u x, o = .run k u x) ∨ (∃ u, o = .submit k u) → k = g :=
      fun o ho => h o (List.mem_cons_of_mem _ ho)
    have hf : ∀ k, ∀ h ∈ busy.filter (· != k), h = g :=
      fun k h hh => hb h (List.mem_filter.mp hh).1
    cases o with
    | wait k => exact ih (hf k) ht
    | record k x => exact ih (hf k) ht
    | submit k u =>
      have hk := h _ List.mem_cons_self k (.inr ⟨u, rfl⟩)
      exact ih (by intro a ha; rcases List.mem_cons.mp ha with rfl | ha; exact hk; exact hb a ha) ht
    | run k u x =>
      have hk := h _ List.mem_cons_self k (.inl ⟨u, x, rfl⟩)
      exact ⟨fun a ha => (hb a ha).trans hk.symm, ih (by simp [hk]) ht⟩
    | waitFor k => exact ih hb ht
    | reset k => exact ih hb ht
    | push x => exact ih hb ht

/-- **C43**, a single graph: any program of runs, records, waits, resets in which each object is
scheduled once and not used afterwards. -/
theorem destruction_safe_single_partial (ops : List Op) (g : Nat)
    (h : ∀ o ∈ ops, ∀ k, (∃ u x, o = .run k u x) ∨ (∃ u, o = .submit k u) → k = g)
    (hn : (pushes ops).Nodup) (hu : NotUsedAfter [] ops) :
    Safe DestroyOk Dev.init (exec St.init ops).2 :=
  destruction_safe_partial ops hn hu (oneAtATime_single g (by simp) h)

/-- A graph whose pipeline 1 is replaced by 2 between two runs, 2 by 3 while recording; then another
graph. -/
def exampleSchedule : List Op :=
  [.run 0 [1] [], .push 1, .run 0 [2] [], .waitFor 0, .run 0 [3] [2], .wait 0, .run 1 [4] []]

theorem example_schedule_ok : (pushes exampleSchedule).Nodup ∧ NotUsedAfter [] exampleSchedule ∧
    OneAtATime [] exampleSchedule := by
  simp [pushes, exampleSchedule, NotUsedAfter, OneAtATime]

/-- **Negation**: the queue belongs to the context, so that another graph's run destroys an object
the submission in flight of the first graph uses. -/
theorem other_graph_destroys :
    ¬ Safe DestroyOk Dev.init (exec St.init [.run 0 [7] [], .push 7, .run 1 [] []]).2 := by
  intro h
  have e : (exec St.init [.run 0 [7] [], .push 7, .run 1 [] []]).2 =
      [.waitForever 0, .resetCmd 0, .resetFence 0, .submit 0 [7],
       .waitForever 1, .resetCmd 1, .resetFence 1, .destroy 7, .submit 1 []] := rfl
  rw [e] at h
  have := h.lazy.2.lazy.2.lazy.2.lazy.2.lazy.2.lazy.2.lazy.2.lazy.1
  have := this.2 0 [7] (by simp [Dev.after])
  simp at this

/-- **Negation**: an object scheduled while the passes record, that commands already recorded use
(for instance a pass's pipeline reset by a later pass's callback), is destroyed before these
commands are submitted. -/
theorem destroyed_before_submission :
    ¬ Safe DestroyOk Dev.init (exec St.init [.run 0 [7] [7]]).2 := by
  intro h
  have e : (exec St.init [.run 0 [7] [7]]).2 =
      [.waitForever 0, .resetCmd 0, .resetFence 0, .destroy 7, .submit 0 [7]] := rfl
  rw [e] at h
  have := h.lazy.2.lazy.2.lazy.2.lazy.2.lazy.1
  simp [DestroyOk, Dev.after, Dev.init] at this

end Verif.Sync
