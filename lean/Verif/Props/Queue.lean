import Verif.Spec.Queue
import Verif.Props.Frame
/-! C79: semaphores of the submissions of graphs, and destruction of graphs. -/
namespace Verif.Queue
open Verif.Run (Wait convert convert_spec)

/-- What the library, the user's book and the device have to do with each other. -/
structure Inv (b : Book) (s : Sync.St) (d : Dev) : Prop where
  ready : ∀ x, d.armed x = b.ready x
  flying : ∀ g ws, d.pending g = some ws → ∃ ws', b.flying g = some ws' ∧ ∀ x, x ∈ ws → x ∈ ws'
  users : ∀ u ∈ d.users, u ∈ b.users
  gone : ∀ g o, (g, o) ∈ d.released → b.gone g = true
  fence : ∀ g, d.pending g ≠ none ∨ d.fence g = true
  queue : s.queue = []

theorem Inv.start : Inv {} Sync.St.init Dev.init :=
  ⟨fun _ => rfl, fun _ _ h => by simp [Dev.init] at h, fun _ h => by simp [Dev.init] at h,
    fun _ _ h => by simp [Dev.init] at h, fun _ => .inr rfl, rfl⟩

theorem Inv.finishing {b s d d'} (h : Inv b s d) (hf : Finishing d d') : Inv b s d' := by
  obtain ⟨h1, h2, h3, h4⟩ := hf
  refine ⟨fun x => by rw [h1]; exact h.ready x, ?_, fun u hu => h.users u (h3 u hu), fun g o ho => h.gone g o (h2 ▸ ho), ?_, h.queue⟩
  · intro g ws hg
    rcases h4 g with ⟨a, _⟩ | ⟨_, a, _⟩
    · exact h.flying g ws (a ▸ hg)
    · rw [a] at hg; cases hg
  · intro g
    rcases h4 g with ⟨a, c⟩ | ⟨_, _, c⟩
    · rw [a, c]; exact h.fence g
    · exact .inr c

theorem Finishing.refl (d : Dev) : Finishing d d := ⟨rfl, rfl, fun _ h => h, fun _ => .inl ⟨rfl, rfl⟩⟩

theorem Finishing.pending {d d' : Dev} (h : Finishing d d') {g : Nat} (hp : d.pending g = none) :
    d'.pending g = none ∧ d'.fence g = d.fence g := by
  rcases h.2.2.2 g with ⟨a, c⟩ | ⟨a, _⟩
  · exact ⟨a.trans hp, c⟩
  · exact absurd hp a

theorem Inv.alive {b s d} (h : Inv b s d) {g : Nat} (hg : b.gone g = false) : d.Alive g := fun o ho => by
  have := h.gone g o ho
  rw [hg] at this; cases this

/-- The fence of a graph just waited for. -/
theorem Inv.waited {b s s' d} (h : Inv b s d) (g : Nat) (hq : s'.queue = []) :
    Inv { b with flying := setAt b.flying g none } s' (d.after (.base (.waitForever g))) := by
  refine ⟨h.ready, ?_, h.users, h.gone, ?_, hq⟩
  · intro x ws hx
    simp only [Dev.after, setAt] at hx ⊢
    split at hx
    · cases hx
    · rename_i hne
      rw [if_neg hne]
      exact h.flying x ws hx
  · intro x
    simp only [Dev.after, setAt]
    by_cases hx : x = g
    · simp [hx]
    · simp [hx, h.fence x]

theorem convert_filter (ws : List Wait) (x : Nat) :
    x ∈ (convert ws).1 ↔ x ∈ (ws.map (·.semaphore)).filter (· ≠ 0) := by
  rw [(convert_spec ws).2.2.2.2 x, List.mem_filter]
  simp [and_comm]

theorem Inv.semaphores {b s d ws ws' ss} (h : Inv b s d) (hn : ws.Nodup) (hn' : ss.Nodup) (hw : ∀ x, x ∈ ws ↔ x ∈ ws')
    (hg : b.Gives ws' ss) : SemaphoresOk d ws ss := by
  refine ⟨hn, hn', ?_, ?_, ?_⟩
  · intro w hw'
    rw [h.ready]
    exact hg.1 w ((hw w).1 hw')
  · intro s hs
    rw [h.ready]
    exact (hg.2.1 s hs).imp (hw s).2 id
  · intro g hgs
    exact h.alive (hg.2.2 g (hgs.imp (hw _).1 id))

theorem rearm_congr {a a' : Nat → Bool} {ws ws' ss : List Nat} (h : ∀ x, a x = a' x) (hw : ∀ x, x ∈ ws ↔ x ∈ ws') (x : Nat) :
    rearm a ws ss x = rearm a' ws' ss x := by
  unfold rearm
  simp only [h, hw]

/-- Every call of `cs` is allowed, and then `K` holds. -/
def SafeThen (K : Dev → Prop) (d : Dev) : List Call → Prop
  | [] => K d
  | c :: cs => ∀ d', Finishing d d' → Ok d' c ∧ SafeThen K (d'.after c) cs

theorem safeThen_safe {K : Dev → Prop} {b : List Call} (hK : ∀ d, K d → Safe d b) : ∀ (a : List Call) {d : Dev},
    SafeThen K d a → Safe d (a ++ b) := by
  intro a
  induction a with
  | nil => intro d h; exact hK d h
  | cons c a ih => intro d h d' hf; exact ⟨(h d' hf).1, ih (h d' hf).2⟩

/-- The book after a run of `g` that was given the semaphores `ws`. -/
def Book.ran (b : Book) (g : Nat) (ws : List Nat) : Book :=
  { b with ready := rearm b.ready ws [semOf g], flying := setAt b.flying g (some ws) }

/-- After a call, and whatever finishes. -/
theorem run_safe {b : Book} {s : Sync.St} {d : Dev} (h : Inv b s d) (g : Nat) (toWait : List Wait) (hg : b.gone g = false)
    (hw : b.Gives ((toWait.map (·.semaphore)).filter (· ≠ 0)) [semOf g]) :
    SafeThen (Inv (b.ran g ((toWait.map (·.semaphore)).filter (· ≠ 0))) (run g toWait s).1) d (run g toWait s).2 := by
  have hq := h.queue
  have e : (run g toWait s).2 = [.base (.waitForever g), .base (.resetCmd g), .base (.resetFence g),
      .submit g (convert toWait).1 (semOf g)] := by
    simp [run, Sync.record, Sync.fenceWait, Sync.fenceReset, Sync.clear, Sync.push, Sync.St.setWaited, hq]
  have eq : (run g toWait s).1.queue = [] := rfl
  rw [e]
  generalize (run g toWait s).1 = s' at eq
  intro d1 f1
  have i1 := h.finishing f1
  refine ⟨⟨i1.alive hg, i1.fence g⟩, ?_⟩
  have i2 := i1.waited (s' := s') g eq
  have p2 : (d1.after (.base (.waitForever g))).pending g = none := by simp [Dev.after, setAt]
  intro d2 f2
  have i3 := i2.finishing f2
  have p3 := (f2.pending p2).1
  have hal : ∀ {d}, Inv { b with flying := setAt b.flying g none } s' d → d.Alive g := fun i => i.alive hg
  refine ⟨⟨hal i3, p3⟩, ?_⟩
  intro d3 f3
  have i4 := i3.finishing (f3 : Finishing d2 d3)
  have p4 := (f3.pending p3).1
  refine ⟨⟨hal i4, p4⟩, ?_⟩
  intro d4 f4
  have p5 := f4.pending (g := g) (show ((d3.after (.base (.resetFence g))).pending g) = none from p4)
  obtain ⟨a1, a2, a3, a4⟩ := f4
  have r4 : ∀ x, d4.armed x = b.ready x := fun x => by rw [a1]; exact i4.ready x
  have g4 : ∀ x o, (x, o) ∈ d4.released → b.gone x = true := fun x o ho => i4.gone x o (a2 ▸ ho)
  have al : ∀ x, b.gone x = false → d4.Alive x := fun x hx o ho => by rw [g4 x o ho] at hx; cases hx
  have hmem := convert_filter toWait
  refine ⟨⟨al g hg, p5.1, ?_, (convert_spec toWait).2.1, (by simp), ?_, ?_, ?_⟩, ?_⟩
  · rw [p5.2]; simp [Dev.after, setAt]
  · intro w hw'
    rw [r4]
    exact hw.1 w ((hmem w).1 hw')
  · intro x hx
    rw [r4]
    exact (hw.2.1 x hx).imp (hmem x).2 id
  · intro x hx
    exact al x (hw.2.2 x (hx.imp (hmem _).1 id))
  · refine ⟨fun x => rearm_congr r4 hmem x, ?_, ?_, g4, ?_, eq⟩
    · intro x ws hx
      simp only [Dev.after, setAt, Book.ran] at hx ⊢
      by_cases hxg : x = g
      · rw [if_pos hxg] at hx ⊢
        injection hx with hx
        exact ⟨_, rfl, fun y hy => (hmem y).1 (hx ▸ hy)⟩
      · rw [if_neg hxg] at hx ⊢
        rcases a4 x with ⟨c1, _⟩ | ⟨_, c1, _⟩
        · rw [c1] at hx
          obtain ⟨ws', c2, c3⟩ := i4.flying x ws hx
          simp only [setAt, if_neg hxg] at c2
          exact ⟨ws', c2, c3⟩
        · rw [c1] at hx; cases hx
    · intro u hu
      exact i4.users u (a3 u hu)
    · intro x
      simp only [Dev.after, setAt]
      by_cases hxg : x = g
      · simp [hxg]
      · simp only [if_neg hxg]
        rcases a4 x with ⟨c1, c2⟩ | ⟨_, _, c2⟩
        · rw [c1, c2]
          simp only [Dev.after, setAt, if_neg hxg]
          exact i4.fence x
        · exact .inr c2

theorem teardown_safe {b : Book} {s : Sync.St} {d : Dev} (h : Inv b s d) (g : Nat) (hg : b.gone g = false)
    (hf : b.flying g = none) (hs : ∀ h ws, b.flying h = some ws → semOf g ∉ ws) (hu : ∀ u ∈ b.users, semOf g ∉ u) :
    SafeThen (Inv { b with gone := setAt b.gone g true } s) d (teardown g) := by
  have pend : ∀ {d : Dev}, (∀ x ws, d.pending x = some ws → ∃ ws', b.flying x = some ws' ∧ ∀ y, y ∈ ws → y ∈ ws') → d.pending g = none := by
    intro d hd
    cases hp : d.pending g with
    | none => rfl
    | some ws =>
      obtain ⟨ws', e, _⟩ := hd g ws hp
      rw [hf] at e; cases e
  have fin : ∀ {d d' : Dev}, Finishing d d' →
      (∀ x ws, d.pending x = some ws → ∃ ws', b.flying x = some ws' ∧ ∀ y, y ∈ ws → y ∈ ws') →
      ∀ x ws, d'.pending x = some ws → ∃ ws', b.flying x = some ws' ∧ ∀ y, y ∈ ws → y ∈ ws' := by
    intro d d' f hd x ws hx
    rcases f.2.2.2 x with ⟨a, _⟩ | ⟨_, a, _⟩
    · exact hd x ws (a ▸ hx)
    · rw [a] at hx; cases hx
  have fen : ∀ {d d' : Dev}, Finishing d d' → (∀ x, d.pending x ≠ none ∨ d.fence x = true) →
      ∀ x, d'.pending x ≠ none ∨ d'.fence x = true := by
    intro d d' f hd x
    rcases f.2.2.2 x with ⟨a, c⟩ | ⟨_, _, c⟩
    · rw [a, c]; exact hd x
    · exact .inr c
  unfold teardown
  intro d1 f1
  have i1 := h.finishing f1
  have al1 := i1.alive hg
  have o1 : Ok d1 (.release g .semaphore) := by
    refine ⟨al1 _, pend i1.flying, fun e => (by cases e), fun _ => ⟨?_, fun u hu' hm => hu u (i1.users u hu') hm⟩⟩
    intro x ws hx hm
    obtain ⟨ws', e, hi⟩ := i1.flying x ws hx
    exact hs x ws' e (hi _ hm)
  refine ⟨o1, ?_⟩
  intro d2 f2
  have r2 : d2.released = (g, .semaphore) :: d1.released := f2.2.1
  have p2 := fin f2 i1.flying
  refine ⟨⟨by rw [r2]; simp [al1 .commandBuffer], pend p2, fun _ => by rw [r2]; simp [al1 .commandPool], fun e => (by cases e)⟩, ?_⟩
  intro d3 f3
  have r3 : d3.released = (g, .commandBuffer) :: d2.released := f3.2.1
  have p3 := fin f3 p2
  refine ⟨⟨by rw [r3, r2]; simp [al1 .fence], pend p3, fun e => (by cases e), fun e => (by cases e)⟩, ?_⟩
  intro d4 f4
  have r4 : d4.released = (g, .fence) :: d3.released := f4.2.1
  have p4 := fin f4 p3
  refine ⟨⟨by rw [r4, r3, r2]; simp [al1 .commandPool], pend p4, fun e => (by cases e), fun e => (by cases e)⟩, ?_⟩
  refine ⟨?_, p4, ?_, ?_, ?_, i1.queue⟩
  · intro x
    show d4.armed x = _
    rw [f4.1]
    show d3.armed x = _
    rw [f3.1]
    show d2.armed x = _
    rw [f2.1]
    exact i1.ready x
  · intro u hu'
    exact i1.users u (f2.2.2.1 u (f3.2.2.1 u (f4.2.2.1 u hu')))
  · intro x o ho
    simp only [Dev.after, r4, r3, r2, List.mem_cons, Prod.mk.injEq, setAt] at ho ⊢
    by_cases hx : x = g
    · simp [hx]
    · rw [if_neg hx]
      simp only [hx, false_and, false_or] at ho
      exact i1.gone x o ho
  · have e2 := fen f2 i1.fence
    have e3 := fen f3 e2
    have e4 := fen f4 e3
    exact e4

theorem exec_safe (ops : List Op) : ∀ {b : Book} {s : Sync.St} {d : Dev}, Inv b s d → Tidy b ops → Safe d (exec s ops).2 := by
  induction ops with
  | nil => intro b s d _ _; exact trivial
  | cons o os ih =>
    intro b s d h ht
    cases o with
    | run g toWait =>
      obtain ⟨hg, hw, ht⟩ := ht
      exact safeThen_safe (fun d' hd' => ih hd' ht) _ (run_safe h g toWait hg hw)
    | wait g =>
      obtain ⟨hg, ht⟩ := ht
      refine safeThen_safe (K := Inv { b with flying := setAt b.flying g none } (step s (.wait g)).1)
        (fun d' hd' => ih hd' ht) [.base (.waitForever g)] ?_
      intro d1 f1
      have i1 := h.finishing f1
      exact ⟨⟨i1.alive hg, i1.fence g⟩, i1.waited g h.queue⟩
    | user ws ss =>
      obtain ⟨h1, h2, hg, ht⟩ := ht
      refine safeThen_safe (K := Inv { b with ready := rearm b.ready ws ss, users := (ws ++ ss) :: b.users } s)
        (fun d' hd' => ih hd' ht) [.user ws ss] ?_
      intro d1 f1
      have i1 := h.finishing f1
      refine ⟨i1.semaphores h1 h2 (fun _ => Iff.rfl) hg, fun x => rearm_congr i1.ready (fun _ => Iff.rfl) x, i1.flying, ?_,
        i1.gone, i1.fence, i1.queue⟩
      intro u hu
      rcases List.mem_cons.1 hu with rfl | hu
      · exact List.mem_cons_self
      · exact List.mem_cons_of_mem _ (i1.users u hu)
    | idle =>
      refine safeThen_safe (K := Inv { b with flying := fun _ => none, users := [] } s) (fun d' hd' => ih hd' ht) [.idle] ?_
      intro d1 f1
      have i1 := h.finishing f1
      refine ⟨trivial, i1.ready, fun _ _ hx => by simp [Dev.after] at hx, fun _ hu => by simp [Dev.after] at hu, i1.gone, ?_, i1.queue⟩
      intro g
      right
      simp only [Dev.after]
      split
      · exact (i1.fence g).resolve_left (fun h => h (by assumption))
      · rfl
    | destroy g =>
      obtain ⟨hg, hf, hs, hu, ht⟩ := ht
      exact safeThen_safe (fun d' hd' => ih hd' ht) _ (teardown_safe h g hg hf hs hu)

/-- **C79** (partial: the user has to wait before destroying a graph): any tidy program of runs, waits, own submissions and
destructions makes only allowed driver calls, whatever the GPU has finished by then. -/
theorem tidy_is_safe_partial (ops : List Op) (h : Tidy {} ops) : Safe Dev.init (exec Sync.St.init ops).2 :=
  exec_safe ops Inv.start h

/-! ## A frame loop is tidy -/

theorem semOf_inj {g h : Nat} (e : semOf g = semOf h) : g = h := by
  simp only [semOf] at e; omega

theorem chain_tidy {rest : List Op} (hrest : ∀ b : Book, (∀ x, b.ready x = false) → (∀ g, b.gone g = false) → Tidy b rest) :
    ∀ (gs : List Nat) (first : Nat) (b : Book), gs.Nodup → first ≠ 0 → (∀ g ∈ gs, semOf g ≠ first) →
      (∀ x, b.ready x = decide (x = first)) → (∀ g, b.gone g = false) → Tidy b (chain first gs ++ rest) := by
  intro gs
  induction gs with
  | nil =>
    intro first b _ _ _ hr hg
    refine ⟨by simp, by simp, ⟨by simp [hr], by simp, fun g _ => hg g⟩, ?_⟩
    refine hrest _ ?_ hg
    intro x
    simp only [rearm, hr]
    by_cases hx : x = first <;> simp [hx]
  | cons g gs ih =>
    intro first b hn h0 hne hr hg
    have hn' := List.nodup_cons.1 hn
    have hfil : (([⟨first, 1⟩] : List Wait).map (·.semaphore)).filter (· ≠ 0) = [first] := by simp [h0]
    have hgf : semOf g ≠ first := hne g (by simp)
    simp only [chain, List.cons_append, Tidy, hfil]
    refine ⟨hg g, ⟨by simp [hr], ?_, fun x _ => hg x⟩, ?_⟩
    · intro s hs
      rw [List.mem_singleton.1 hs]
      right
      simp [hr, hgf]
    · refine ih (semOf g) _ hn'.2 (by simp [semOf]) ?_ ?_ hg
      · intro x hx e
        exact hn'.1 (semOf_inj e ▸ hx)
      · intro x
        simp only [rearm, hr]
        by_cases h1 : x = semOf g
        · simp [h1]
        · by_cases h2 : x = first <;> simp [h1, h2]

theorem destroys_tidy : ∀ (gs : List Nat) (b : Book), gs.Nodup → (∀ g ∈ gs, b.gone g = false) → (∀ g, b.flying g = none) →
    b.users = [] → Tidy b (gs.map .destroy) := by
  intro gs
  induction gs with
  | nil => intro b _ _ _ _; exact trivial
  | cons g gs ih =>
    intro b hn hg hf hu
    have hn' := List.nodup_cons.1 hn
    refine ⟨hg g (by simp), hf g, fun h ws e => (by rw [hf h] at e; cases e), fun u h => (by rw [hu] at h; cases h), ?_⟩
    refine ih _ hn'.2 ?_ hf hu
    intro x hx
    simp only [setAt]
    rw [if_neg (fun e : x = g => hn'.1 (e ▸ hx))]
    exact hg x (by simp [hx])

/-- A frame loop keeps to the rules: any number of graphs run one after the other, any number of frames, destruction when the
device is idle. -/
theorem session_tidy (gs : List Nat) (hn : gs.Nodup) (n : Nat) : Tidy {} (session gs n) := by
  have key : ∀ n (b : Book), (∀ x, b.ready x = false) → (∀ g, b.gone g = false) → Tidy b (session gs n) := by
    intro n
    induction n with
    | zero =>
      intro b _ hg
      exact destroys_tidy gs _ hn (fun g _ => hg g) (fun _ => rfl) rfl
    | succ n ih =>
      intro b hr hg
      have e : session gs (n + 1) = .user [] [extSem 0] :: (chain (extSem 0) gs ++ session gs n) := by
        simp [session, frame, List.replicate_succ]
      rw [e]
      refine ⟨by simp, by simp, ⟨by simp, fun s _ => .inr (hr s), fun g _ => hg g⟩, ?_⟩
      refine chain_tidy ih gs _ _ hn (by simp [extSem]) (fun g _ => by simp only [semOf, extSem]; omega) ?_ hg
      intro x
      simp [rearm, hr]
  exact key n {} (fun _ => rfl) (fun _ => rfl)

/-- **C79**: so a frame loop makes only allowed calls. -/
theorem session_safe (gs : List Nat) (hn : gs.Nodup) (n : Nat) : Safe Dev.init (exec Sync.St.init (session gs n)).2 :=
  tidy_is_safe_partial _ (session_tidy gs hn n)

example : session [3, 5] 1 = [.user [] [2], .run 3 [⟨2, 1⟩], .run 5 [⟨7, 1⟩], .user [11] [], .idle, .destroy 3, .destroy 5] := rfl
/-- What is submitted in such a frame: each graph waits for the one before. -/
example : (exec Sync.St.init (session [3, 5] 1)).2.filter (fun c => match c with | .submit .. => true | _ => false) =
    [.submit 3 [2] 7, .submit 5 [7] 11] := by decide

/-! ## What isn't allowed: the library doesn't protect the user -/

/-- If the calls are allowed, then they are when nothing finishes by itself. -/
theorem safe_lazy : ∀ (cs : List Call) (d : Dev), Safe d cs → ∀ pre c post, cs = pre ++ c :: post → Ok (pre.foldl Dev.after d) c := by
  intro cs
  induction cs with
  | nil => intro d _ pre c post e; simp at e
  | cons a cs ih =>
    intro d h pre c post e
    obtain ⟨h1, h2⟩ := h d (Finishing.refl d)
    cases pre with
    | nil => simp only [List.nil_append, List.cons.injEq] at e; exact e.1 ▸ h1
    | cons p pre =>
      simp only [List.cons_append, List.cons.injEq] at e
      exact e.1 ▸ ih _ h2 pre c post e.2

/-- Running a graph twice and ignoring what the first run returned signals a signaled semaphore: not allowed, for any graph. -/
theorem ignored_result_not_safe (g : Nat) : ¬ Safe Dev.init (exec Sync.St.init [.run g [], .run g []]).2 := by
  intro h
  have e : (exec Sync.St.init [.run g [], .run g []]).2 =
      [.base (.waitForever g), .base (.resetCmd g), .base (.resetFence g), .submit g [] (semOf g),
       .base (.waitForever g), .base (.resetCmd g), .base (.resetFence g)] ++ .submit g [] (semOf g) :: [] := by
    simp [exec, step, run, Sync.record, Sync.fenceWait, Sync.fenceReset, Sync.clear, Sync.push, Sync.St.setWaited, Sync.St.init, convert]
  have := (safe_lazy _ _ h _ _ _ e).2.2.2.2.2.2.1 (semOf g) (by simp)
  simp [Dev.after, rearm] at this

/-- Destroying a graph that was run and not waited for isn't allowed: the destructor doesn't wait. -/
theorem destroy_in_flight_not_safe (g : Nat) : ¬ Safe Dev.init (exec Sync.St.init [.run g [], .destroy g]).2 := by
  intro h
  have e : (exec Sync.St.init [.run g [], .destroy g]).2 =
      [.base (.waitForever g), .base (.resetCmd g), .base (.resetFence g), .submit g [] (semOf g)] ++
        .release g .semaphore :: [.release g .commandBuffer, .release g .fence, .release g .commandPool] := by
    simp [exec, step, run, teardown, Sync.record, Sync.fenceWait, Sync.fenceReset, Sync.clear, Sync.push, Sync.St.setWaited, Sync.St.init, convert]
  have := (safe_lazy _ _ h _ _ _ e).2.1
  simp [Dev.after, setAt] at this

/-- Waiting for the graph isn't enough when another one was given what it returned. -/
theorem destroy_chained_not_safe (a b st : Nat) (hab : a ≠ b) :
    ¬ Safe Dev.init (exec Sync.St.init [.run a [], .run b (result a st), .wait a, .destroy a]).2 := by
  intro h
  have e : (exec Sync.St.init [.run a [], .run b (result a st), .wait a, .destroy a]).2 =
      [.base (.waitForever a), .base (.resetCmd a), .base (.resetFence a), .submit a [] (semOf a),
       .base (.waitForever b), .base (.resetCmd b), .base (.resetFence b), .submit b [semOf a] (semOf b),
       .base (.waitForever a)] ++
        .release a .semaphore :: [.release a .commandBuffer, .release a .fence, .release a .commandPool] := by
    simp [exec, step, run, teardown, Sync.record, Sync.fenceWait, Sync.fenceReset, Sync.clear, Sync.push, Sync.St.setWaited, Sync.St.init,
      convert, result, semOf]
  have := ((safe_lazy _ _ h _ _ _ e).2.2.2 rfl).1 b [semOf a]
  simp [Dev.after, setAt, Ne.symm hab] at this

/-- Once the second graph was waited for too, it is allowed. -/
theorem destroy_chained_waited_safe (a b st : Nat) (hab : a ≠ b) :
    Safe Dev.init (exec Sync.St.init [.run a [], .run b (result a st), .wait a, .wait b, .destroy a]).2 := by
  refine tidy_is_safe_partial _ ?_
  have h0 : semOf a ≠ 0 := by simp [semOf]
  have hs : semOf a ≠ semOf b := fun e => hab (semOf_inj e)
  refine ⟨rfl, ⟨by simp, by simp, fun _ _ => rfl⟩, rfl, ⟨?_, ?_, fun _ _ => rfl⟩, rfl, rfl, rfl, ?_, ?_, ?_, trivial⟩
  · intro w hw
    simp only [result, List.map_cons, List.map_nil, List.mem_filter, List.mem_singleton] at hw
    simp [rearm, hw.1]
  · intro s hs'
    rw [List.mem_singleton.1 hs']
    right
    simp [rearm, Ne.symm hs]
  · simp [setAt]
  · intro x ws hx
    simp only [setAt] at hx
    by_cases h1 : x = b <;> by_cases h2 : x = a <;> simp [h1, h2] at hx
  · simp

end Verif.Queue
