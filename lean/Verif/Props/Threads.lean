import Verif.Lemmas.ThreadsOrder
/-!
C81: a resource handler shared by threads. For every assignment of calls to threads and every schedule, with the steps of the
threads in any order: no container is accessed by two threads at once, no thread waits for ever, and the calls return what they
would return one after the other.
-/
namespace Verif.Thr

open Verif.Res (ViewData)

/-- C81: at every moment of every run, the calls made so far are explained by an order of them that contains the order of every earlier
moment: a call that was finished before another began comes before it. -/
theorem linearizable (calls : Nat → List Call) (ts : List Nat) :
    ∃ o, Linearizes (runSchedule (Config.init calls) ts) o ∧
      ∀ ts', ts' <+: ts → ∃ o', o' <+: o ∧ Linearizes (runSchedule (Config.init calls) ts') o' := by
  obtain ⟨o, A, _, I, hall⟩ := run_inv_all ts (inv_init calls)
  refine ⟨o, linearizes_of_inv I, fun ts' h => ?_⟩
  obtain ⟨o', A', _, h2, I'⟩ := hall ts' h
  exact ⟨o', h2, linearizes_of_inv I'⟩

/-- C81: when all calls are made, the containers are what these calls, in some order, lead to. -/
theorem final_state (calls : Nat → List Call) (ts : List Nat) (hf : ∀ t, Finished ((runSchedule (Config.init calls) ts).threads t)) :
    ∃ o, Explains {} o (seqOf (runSchedule (Config.init calls) ts).mem) ∧ ∀ t, (ofThread t o).map (·.1) = calls t := by
  obtain ⟨o, L, _⟩ := linearizable calls ts
  obtain ⟨s, h1, h2⟩ := L.explains
  refine ⟨o, (h2 fun t => (hf t).1) ▸ h1, fun t => ?_⟩
  rw [L.idle t (hf t).1, ← run_calls calls ts t]
  simp [Thread.calls, (hf t).1, (hf t).2]

/-- C81: who accesses a container has its mutex. -/
theorem access_owned (calls : Nat → List Call) (ts : List Nat) {t : Nat} {x : Call} {m : Mutex} {f : Comp m → Comp m} {k : Comp m → Prog}
    (h : ((runSchedule (Config.init calls) ts).threads t).cur = some (x, .access m f k)) :
    (runSchedule (Config.init calls) ts).owner m = some t := by
  obtain ⟨o, A, _, I⟩ := run_inv ts (inv_init calls)
  rcases I.busy t x _ h with P | P <;> exact P.1.1

/-- C81: no two threads access a container at the same time. -/
theorem race_free (calls : Nat → List Call) (ts : List Nat) : ¬ Race (runSchedule (Config.init calls) ts) := by
  rintro ⟨t, u, m, hne, ⟨x, f, k, h1⟩, ⟨y, g, l, h2⟩⟩
  have e1 := access_owned calls ts h1
  have e2 := access_owned calls ts h2
  rw [e1] at e2
  exact hne (Option.some.inj e2)

/-- C81: as long as a thread is not finished, some thread can move. -/
theorem no_deadlock (calls : Nat → List Call) (ts : List Nat) {t : Nat} (h : ¬ Finished ((runSchedule (Config.init calls) ts).threads t)) :
    ∃ u, (step (runSchedule (Config.init calls) ts) u).isSome := by
  obtain ⟨o, A, _, I⟩ := run_inv ts (inv_init calls)
  cases hs : step (runSchedule (Config.init calls) ts) t with
  | some c' => exact ⟨t, by simp [hs]⟩
  | none =>
    rcases stuck hs with h' | ⟨x, m, k, _, ho⟩
    · exact absurd h' h
    · cases hw : (runSchedule (Config.init calls) ts).owner m with
      | none => exact absurd hw ho
      | some w => exact progress I 4 m w (by omega) hw

/-! ## Steps are few -/

theorem steps_run {c c' : Config} {ts : List Nat} (h : steps c ts = some c') : runSchedule c ts = c' := by
  induction ts generalizing c with
  | nil => exact Option.some.inj h
  | cons t ts ih =>
    simp only [steps] at h
    cases hs : step c t with
    | none => rw [hs] at h; cases h
    | some c1 =>
      rw [hs] at h
      have := ih h
      simpa [runSchedule, hs] using this

theorem steps_append {c c' c'' : Config} {ts us : List Nat} (h : steps c ts = some c') (h' : steps c' us = some c'') :
    steps c (ts ++ us) = some c'' := by
  induction ts generalizing c with
  | nil => cases h; exact h'
  | cons t ts ih =>
    simp only [steps, List.cons_append] at h ⊢
    cases hs : step c t with
    | none => rw [hs] at h; cases h
    | some c1 => rw [hs] at h; exact ih h

/-- Steps left to a thread, at most. -/
def Left (th : Thread) (n : Nat) : Prop :=
  match th.cur with
  | none => 12 * th.todo.length ≤ n
  | some (_, p) => ∃ b, Bounded b p ∧ b + 12 * th.todo.length ≤ n

theorem left_step {c c' : Config} {t : Nat} (h : step c t = some c') (u : Nat) {n : Nat} (hl : Left (c.threads u) n) :
    if t = u then ∃ m, m + 1 = n ∧ Left (c'.threads u) m else Left (c'.threads u) n := by
  by_cases hu : t = u
  · rw [if_pos hu]; subst hu
    unfold step at h
    cases hc : (c.threads t).cur with
    | none =>
      simp only [hc] at h
      simp only [Left, hc] at hl
      split at h
      · exact absurd h (by simp)
      · rename_i x xs ht
        injection h with h; subst h
        rw [ht] at hl
        simp at hl
        refine ⟨n - 1, by omega, ?_⟩
        simp only [setThread_same, Left]
        exact ⟨11, code_bounded x, by omega⟩
    | some y =>
      obtain ⟨x, p⟩ := y
      simp only [hc] at h
      simp only [Left, hc] at hl
      obtain ⟨b, hb, hn⟩ := hl
      cases b with
      | zero => exact hb.elim
      | succ b =>
        cases p <;> simp only at h <;> (try split at h) <;> first
          | (injection h with h; subst h; refine ⟨n - 1, by omega, ?_⟩; simp only [setThread_same, Left]
             first
               | exact ⟨b, hb, by omega⟩
               | exact ⟨b, hb _, by omega⟩
               | omega)
          | exact absurd h (by simp)
  · rw [if_neg hu]
    have : c'.threads u = c.threads u := by
      unfold step at h
      cases hc : (c.threads t).cur with
      | none =>
        simp only [hc] at h
        split at h
        · exact absurd h (by simp)
        · injection h with h; subst h; exact setThread_other _ _ (Ne.symm hu)
      | some y =>
        obtain ⟨x, p⟩ := y
        simp only [hc] at h
        cases p <;> simp only at h <;> (try split at h) <;> first
          | (injection h with h; subst h; exact setThread_other _ _ (Ne.symm hu))
          | exact absurd h (by simp)
    rw [this]; exact hl

/-- C81: a thread makes at most twelve steps per call, whatever the others do. -/
theorem steps_bounded (calls : Nat → List Call) {ts : List Nat} {c : Config} (h : steps (Config.init calls) ts = some c) (u : Nat) :
    ts.count u ≤ 12 * (calls u).length := by
  have gen : ∀ (ts : List Nat) (c0 c : Config) (n : Nat), steps c0 ts = some c → Left (c0.threads u) n → ts.count u ≤ n := by
    intro ts
    induction ts with
    | nil => intro _ _ _ _ _; simp
    | cons t ts ih =>
      intro c0 c n h hl
      simp only [steps] at h
      cases hs : step c0 t with
      | none => rw [hs] at h; cases h
      | some c1 =>
        rw [hs] at h
        have := left_step hs u hl
        by_cases htu : t = u
        · rw [if_pos htu] at this
          obtain ⟨m, hm, hl'⟩ := this
          have := ih c1 c m h hl'
          rw [htu, List.count_cons_self]; omega
        · rw [if_neg htu] at this
          have := ih c1 c n h this
          rw [List.count_cons_of_ne htu]; omega
  exact gen ts _ c _ h (by simp [Left, Config.init])

/-- C81: whatever the schedule did so far, all calls of finitely many threads can be finished; and a schedule that only makes steps that are
possible does so after at most twelve steps per call. -/
theorem finishes (calls : Nat → List Call) (N : Nat) (hN : ∀ t, N ≤ t → calls t = []) {ts : List Nat} {c : Config}
    (h : steps (Config.init calls) ts = some c) :
    ts.length ≤ 12 * total calls N ∧ ((∀ u, step c u = none) → ∀ t, Finished (c.threads t)) ∧
      ∃ us c', steps c us = some c' ∧ ∀ t, Finished (c'.threads t) := by
  have len : ∀ {ts : List Nat} {c : Config}, steps (Config.init calls) ts = some c → ts.length ≤ 12 * total calls N := by
    intro ts c h
    have hb := fun u => steps_bounded calls h u
    rw [length_by_key _root_.id N ts]
    · have h1 : ((List.range N).map fun t => 12 * (calls t).length).sum = 12 * total calls N := by
        unfold total
        generalize List.range N = l
        induction l with
        | nil => rfl
        | cons a l ih => simp only [List.map_cons, List.sum_cons, ih]; omega
      rw [← h1]
      refine sum_range_le N _ _ (fun t => ?_)
      have := hb t
      rwa [List.count_eq_length_filter, show (fun x => x == t) = fun x : Nat => decide (_root_.id x = t) from funext fun x => by
        by_cases hx : x = t <;> simp [hx]] at this
    · intro x hx
      rcases Nat.lt_or_ge x N with h' | h'
      · exact h'
      · have := hb x
        rw [hN x h'] at this
        have hp := List.count_pos_iff.2 hx
        simp only [List.length_nil] at this
        omega
  have stop : ∀ {ts : List Nat} {c : Config}, steps (Config.init calls) ts = some c → (∀ u, step c u = none) → ∀ t, Finished (c.threads t) := by
    intro ts c h hs t
    apply Classical.byContradiction
    intro hn
    rw [← steps_run h] at hn hs
    obtain ⟨u, hu⟩ := no_deadlock calls ts hn
    rw [hs u] at hu; cases hu
  refine ⟨len h, stop h, ?_⟩
  have go : ∀ (n : Nat) (ts : List Nat) (c : Config), steps (Config.init calls) ts = some c → 12 * total calls N - ts.length ≤ n →
      ∃ us c', steps c us = some c' ∧ ∀ t, Finished (c'.threads t) := by
    intro n
    induction n with
    | zero =>
      intro ts c h hn
      refine ⟨[], c, rfl, stop h (fun u => ?_)⟩
      cases hs : step c u with
      | none => rfl
      | some c' =>
        have := len (steps_append h (us := [u]) (c'' := c') (by simp [steps, hs]))
        simp at this; omega
    | succ n ih =>
      intro ts c h hn
      by_cases hs : ∀ u, step c u = none
      · exact ⟨[], c, rfl, stop h hs⟩
      · obtain ⟨u, hu⟩ := Classical.not_forall.1 hs
        cases hs : step c u with
        | none => exact absurd hs hu
        | some c1 =>
          have h1 := steps_append h (us := [u]) (c'' := c1) (by simp [steps, hs])
          obtain ⟨us, c', g1, g2⟩ := ih _ c1 h1 (by simp; omega)
          exact ⟨u :: us, c', by simp [steps, hs, g1], g2⟩
  exact go _ ts c h (Nat.le_refl _)

/-! ## What callers see -/

/-- C81: ids of images, asked for by any threads, differ. -/
theorem concurrent_image_ids (calls : Nat → List Call) (N : Nat) (hN : ∀ t, N ≤ t → calls t = []) (hl : total calls N < 2 ^ 32) (ts : List Nat)
    {t i u j d e : Nat} {r q : Res} (h1 : ((runSchedule (Config.init calls) ts).threads t).done[i]? = some (.imageId d, r))
    (h2 : ((runSchedule (Config.init calls) ts).threads u).done[j]? = some (.imageId e, q)) (hne : t ≠ u ∨ i ≠ j) : r.1 ≠ q.1 := by
  obtain ⟨o, L, _⟩ := linearizable calls ts
  have hlen := order_length hN L
  obtain ⟨s, hex, _⟩ := L.explains
  rcases two_calls L h1 h2 hne with ⟨a, b, c, rfl⟩ | ⟨a, b, c, rfl⟩
  · obtain ⟨ops, x, y, hxy, hol, g1, g2, g3, g4⟩ := two_ids hex (x := .image d) (y := .image e) (r := r.1) (q := q.1) rfl rfl rfl rfl
    have := Verif.Res.image_ids_fresh ops (by omega) x y d e hxy g1 g2
    rw [g3, g4] at this
    exact fun h => this (congrArg _ h)
  · obtain ⟨ops, x, y, hxy, hol, g1, g2, g3, g4⟩ := two_ids hex (x := .image e) (y := .image d) (r := q.1) (q := r.1) rfl rfl rfl rfl
    have := Verif.Res.image_ids_fresh ops (by omega) x y e d hxy g1 g2
    rw [g3, g4] at this
    exact fun h => this (congrArg _ h.symm)

/-- C81: ids of views, asked for by any threads, are equal iff they describe the same view. -/
theorem concurrent_view_ids (calls : Nat → List Call) (N : Nat) (hN : ∀ t, N ≤ t → calls t = []) (hl : total calls N < 2 ^ 32) (ts : List Nat)
    {t i u j : Nat} {v w : ViewData} {r q : Res} (h1 : ((runSchedule (Config.init calls) ts).threads t).done[i]? = some (.viewId v, r))
    (h2 : ((runSchedule (Config.init calls) ts).threads u).done[j]? = some (.viewId w, q)) (hne : t ≠ u ∨ i ≠ j) :
    r.1 = q.1 ↔ v.desc = w.desc := by
  obtain ⟨o, L, _⟩ := linearizable calls ts
  have hlen := order_length hN L
  obtain ⟨s, hex, _⟩ := L.explains
  rcases two_calls L h1 h2 hne with ⟨a, b, c, rfl⟩ | ⟨a, b, c, rfl⟩
  · obtain ⟨ops, x, y, hxy, hol, g1, g2, g3, g4⟩ := two_ids hex (x := .view v) (y := .view w) (r := r.1) (q := q.1) rfl rfl rfl rfl
    have := Verif.Res.view_ids_iff ops (by omega) x y v w g1 g2
    rw [g3, g4] at this
    simpa using this
  · obtain ⟨ops, x, y, hxy, hol, g1, g2, g3, g4⟩ := two_ids hex (x := .view w) (y := .view v) (r := q.1) (q := r.1) rfl rfl rfl rfl
    have := Verif.Res.view_ids_iff ops (by omega) x y w v g1 g2
    rw [g3, g4] at this
    simp only [Option.some.injEq] at this
    exact ⟨fun h => (this.1 h.symm).symm, fun h => (this.2 h.symm).symm⟩

/-- C81: threads that ask for the same image get the same one, made once, unless it is destroyed. -/
theorem concurrent_images (calls : Nat → List Call) (ts : List Nat) {t a u b i h k : Nat} {r q : Res}
    (hno : ∀ w, Call.destroyImage i ∉ calls w)
    (h1 : ((runSchedule (Config.init calls) ts).threads t).done[a]? = some (.createImage i h, r))
    (h2 : ((runSchedule (Config.init calls) ts).threads u).done[b]? = some (.createImage i k, q)) (hne : t ≠ u ∨ a ≠ b) :
    r.1 = q.1 ∧ (r.2 = false ∨ q.2 = false) := by
  obtain ⟨o, L, _⟩ := linearizable calls ts
  have hm : ∀ e ∈ o, e.2.1 ≠ .destroyImage i := fun e he hc => hno e.1 (hc ▸ mem_order L he)
  obtain ⟨s, hex, _⟩ := L.explains
  rcases two_calls L h1 h2 hne with ⟨x, y, z, rfl⟩ | ⟨x, y, z, rfl⟩
  · rw [two_images hex (fun e he => hm e (by simp [he]))]; exact ⟨rfl, .inr rfl⟩
  · rw [two_images hex (fun e he => hm e (by simp [he]))]; exact ⟨rfl, .inl rfl⟩

/-- C81: the same for views. -/
theorem concurrent_views (calls : Nat → List Call) (ts : List Nat) {t a u b v i h h' i' k k' : Nat} {r q : Res}
    (hno : ∀ w, Call.destroyView v ∉ calls w)
    (h1 : ((runSchedule (Config.init calls) ts).threads t).done[a]? = some (.createView v i h h', r))
    (h2 : ((runSchedule (Config.init calls) ts).threads u).done[b]? = some (.createView v i' k k', q)) (hne : t ≠ u ∨ a ≠ b) :
    r.1 = q.1 ∧ (r.2 = false ∨ q.2 = false) := by
  obtain ⟨o, L, _⟩ := linearizable calls ts
  have hm : ∀ e ∈ o, e.2.1 ≠ .destroyView v := fun e he hc => hno e.1 (hc ▸ mem_order L he)
  obtain ⟨s, hex, _⟩ := L.explains
  rcases two_calls L h1 h2 hne with ⟨x, y, z, rfl⟩ | ⟨x, y, z, rfl⟩
  · rw [two_views hex (fun e he => hm e (by simp [he]))]; exact ⟨rfl, .inr rfl⟩
  · rw [two_views hex (fun e he => hm e (by simp [he]))]; exact ⟨rfl, .inl rfl⟩

/-! ## Examples -/

/-- Thread 0 makes a view of image 1, thread 1 an image and destroys it. -/
def mixed : Nat → List Call
  | 0 => [.createView 7 1 10 20, .imageId 3]
  | 1 => [.createImage 1 11, .destroyImage 1, .imageId 4]
  | _ => []

/-- The calls overlap: thread 1 waits for the mutex while thread 0 makes the image, and gets that one. -/
example : let c := runSchedule (Config.init mixed) ([0, 0, 0, 0, 0, 1, 1, 0, 0, 0, 1] ++ List.replicate 40 1 ++ List.replicate 40 0)
    (c.threads 0).done.map (·.2) = [(20, true), (2, true)] ∧ (c.threads 1).done.map (·.2) = [(10, false), (10, true), (1, true)] := by
  decide +kernel

end Verif.Thr
