import Verif.Spec.Log
/-
C103: the logger used by several threads.
-/
namespace Verif.Logger

theorem upd_same {α β : Type} [DecidableEq α] (f : α → β) (a : α) (b : β) : upd f a b a = b := if_pos rfl
theorem upd_other {α β : Type} [DecidableEq α] {f : α → β} {a x : α} {b : β} (h : x ≠ a) : upd f a b x = f x := if_neg h

/-! ### Nobody is stuck -/

/-- The mutex is taken and given back at once. -/
inductive Whole : List Step → Prop where
  | nil : Whole []
  | pair {r : List Step} : Whole r → Whole (.acquire :: .release :: r)
  | other {x : Step} {r : List Step} : x ≠ .acquire → x ≠ .release → Whole r → Whole (x :: r)

theorem whole_append {a b : List Step} (ha : Whole a) (hb : Whole b) : Whole (a ++ b) := by
  induction ha with
  | nil => exact hb
  | pair _ ih => exact .pair ih
  | other h1 h2 _ ih => exact .other h1 h2 ih

theorem whole_code (o : Op) : Whole (code o) := by
  cases o with
  | log l m => exact .pair (.other (by simp) (by simp) .nil)
  | set l c => exact .pair (.other (by simp) (by simp) .nil)
  | put st text => exact .other (by simp) (by simp) .nil

theorem whole_codes (os : List Op) : Whole (os.flatMap code) := by
  induction os with
  | nil => exact .nil
  | cons o os ih => rw [List.flatMap_cons]; exact whole_append (whole_code o) ih

theorem Whole.tail {x : Step} {r : List Step} (h : Whole (x :: r)) (h1 : x ≠ .acquire) : Whole r := by
  cases h with
  | pair _ => exact absurd rfl h1
  | other _ _ h => exact h

/-- A thread is outside of `doGetInstance`, or holds the mutex and is about to give it back. -/
structure Held (s : St) : Prop where
  shape : ∀ t, Whole (s.rest t) ∨ (s.holder = some t ∧ ∃ r, s.rest t = .release :: r ∧ Whole r)
  holder : ∀ t, s.holder = some t → ∃ r, s.rest t = .release :: r

theorem Held.whole {s : St} (h : Held s) {t : Nat} {x : Step} {r : List Step} (e : s.rest t = x :: r) (hx : x ≠ .release) :
    Whole (x :: r) := by
  rcases h.shape t with h | ⟨-, r', h, -⟩
  · rw [← e]; exact h
  · rw [h] at e; exact absurd (List.cons.inj e).1.symm hx

/-- A step that leaves the mutex alone. -/
theorem Held.step {s s' : St} (h : Held s) {t : Nat} {x : Step} {r r' : List Step} (e : s.rest t = x :: r) (h1 : x ≠ .acquire)
    (h2 : x ≠ .release) (hr : Whole r → Whole r') (e1 : s'.rest = upd s.rest t r') (e2 : s'.holder = s.holder) : Held s' := by
  have hw := (h.whole e h2).tail h1
  refine ⟨fun t' => ?_, fun t' ht' => ?_⟩
  · rw [e1, e2]
    by_cases c : t' = t
    · subst c; rw [upd_same]; exact Or.inl (hr hw)
    · rw [upd_other c]; exact h.shape t'
  · rw [e2] at ht'
    obtain ⟨r1, h3⟩ := h.holder t' ht'
    have c : t' ≠ t := by
      intro c; subst c
      rw [h3] at e
      exact h2 (List.cons.inj e).1.symm
    rw [e1, upd_other c]
    exact ⟨r1, h3⟩

theorem held_reach {body : Body} {cb : Level → Nat} {progs : Nat → List Op} {s : St} (h : Reach body (init cb progs) s) :
    Held s := by
  induction h with
  | start => exact ⟨fun t => Or.inl (whole_codes _), fun t h => by cases h⟩
  | next _ hn ih =>
    cases hn with
    | acquire t r e hh =>
      have hw := ih.whole e (by simp)
      obtain ⟨r', rfl, hw'⟩ : ∃ r', r = .release :: r' ∧ Whole r' := by
        cases hw with
        | pair h => exact ⟨_, rfl, h⟩
        | other h _ _ => exact absurd rfl h
      refine ⟨fun t' => ?_, fun t' ht' => ?_⟩
      · by_cases c : t' = t
        · subst c; exact Or.inr ⟨rfl, r', upd_same _ _ _, hw'⟩
        · rcases ih.shape t' with h | ⟨h, -⟩
          · left; simp only [upd_other c]; exact h
          · rw [hh] at h; cases h
      · obtain rfl := Option.some.inj ht'
        exact ⟨r', upd_same _ _ _⟩
    | release t r e hh =>
      refine ⟨fun t' => ?_, fun t' ht' => by cases ht'⟩
      left
      by_cases c : t' = t
      · subst c
        simp only [upd_same]
        rcases ih.shape t' with h | ⟨-, r', h, hw⟩
        · rw [e] at h
          cases h with
          | other _ h _ => exact absurd rfl h
        · rw [e] at h
          rw [(List.cons.inj h).2]; exact hw
      · simp only [upd_other c]
        rcases ih.shape t' with h | ⟨h, -⟩
        · exact h
        · rw [hh] at h; exact absurd (Option.some.inj h).symm c
    | call t l m r e =>
      exact ih.step e (by simp) (by simp) (fun h => whole_append (whole_codes _) (.other (by simp) (by simp) h)) rfl rfl
    | ret t l r e => exact ih.step e (by simp) (by simp) (fun h => h) rfl rfl
    | assign t l c r e => exact ih.step e (by simp) (by simp) (fun h => .other (by simp) (by simp) h) rfl rfl
    | assigned t l r e => exact ih.step e (by simp) (by simp) (fun h => h) rfl rfl
    | put t st text r e => exact ih.step e (by simp) (by simp) (fun h => h) rfl rfl

/-- C103: whatever threads log and set, and whatever the callbacks do, logging themselves included, as long as a thread has something
left to do, some thread can go on. -/
theorem logger_never_stuck {body : Body} {cb : Level → Nat} {progs : Nat → List Op} {s : St} (h : Reach body (init cb progs) s)
    (hr : ∃ t, s.rest t ≠ []) : ∃ s', Next body s s' := by
  have H := held_reach h
  cases hh : s.holder with
  | some t =>
    obtain ⟨r, e⟩ := H.holder t hh
    exact ⟨_, .release s t r e hh⟩
  | none =>
    obtain ⟨t, ht⟩ := hr
    cases e : s.rest t with
    | nil => exact absurd e ht
    | cons x r =>
      cases x with
      | acquire => exact ⟨_, .acquire s t r e hh⟩
      | release =>
        rcases H.shape t with h | ⟨h, -⟩
        · rw [e] at h
          cases h with
          | other _ h _ => exact absurd rfl h
        · rw [hh] at h; cases h
      | call l m => exact ⟨_, .call s t l m r e⟩
      | ret l => exact ⟨_, .ret s t l r e⟩
      | assign l c => exact ⟨_, .assign s t l c r e⟩
      | assigned l => exact ⟨_, .assigned s t l r e⟩
      | put st text => exact ⟨_, .put s t st text r e⟩

/-- C103: a thread that calls a callback, or writes inside of one, does not hold the mutex. -/
theorem mutex_free_in_callbacks {body : Body} {cb : Level → Nat} {progs : Nat → List Op} {s s' : St}
    (h : Reach body (init cb progs) s) (hn : Next body s s') {t : Nat} {e : Event} (he : s'.out = s.out ++ [(t, e)]) :
    s.holder ≠ some t := by
  intro ht
  obtain ⟨r, hr⟩ := (held_reach h).holder t ht
  have no : ∀ {o : List (Nat × Event)}, o ≠ o ++ [(t, e)] := fun {o} c => by
    have := congrArg List.length c
    simp at this
  have same : ∀ {t' : Nat} {e' : Event}, s.out ++ [(t', e')] = s.out ++ [(t, e)] → t' = t := fun c => by
    have := List.append_cancel_left c
    exact (Prod.mk.inj (List.cons.inj this).1).1
  cases hn with
  | acquire t' r' e' hh => exact no he
  | release t' r' e' hh => exact no he
  | call t' l m r' e' => obtain rfl := same he; rw [hr] at e'; cases e'
  | ret t' l r' e' => exact no he
  | assign t' l c' r' e' => exact no he
  | assigned t' l r' e' => exact no he
  | put t' st text r' e' => obtain rfl := same he; rw [hr] at e'; cases e'

/-! ### It ends -/

/-- The sum over the threads. -/
def total (F : List Step → Nat) : Nat → (Nat → List Step) → Nat
  | 0, _ => 0
  | n + 1, g => total F n g + F (g n)

theorem total_upd_out (F : List Step → Nat) (g : Nat → List Step) {t : Nat} (r : List Step) : ∀ n, n ≤ t →
    total F n (upd g t r) = total F n g
  | 0, _ => rfl
  | n + 1, h => by
    unfold total
    rw [total_upd_out F g r n (by omega), upd_other (show n ≠ t by omega)]

theorem total_upd (F : List Step → Nat) (g : Nat → List Step) {t : Nat} (r : List Step) : ∀ n, t < n →
    total F n (upd g t r) + F (g t) = total F n g + F r
  | 0, h => by omega
  | n + 1, h => by
    unfold total
    by_cases c : t = n
    · subst c
      rw [total_upd_out F g r t (Nat.le_refl _), upd_same]
      omega
    · have := total_upd F g r n (show t < n by omega)
      rw [upd_other (show n ≠ t from fun e => c e.symm)]
      omega

/-- How many callbacks the steps call. -/
def calls (r : List Step) : Nat := (r.filter fun | .call .. => true | _ => false).length

theorem calls_codes {os : List Op} (h : ∀ l m, Op.log l m ∉ os) : calls (os.flatMap code) = 0 := by
  unfold calls
  rw [List.length_eq_zero_iff, List.filter_eq_nil_iff]
  intro x hx
  obtain ⟨o, ho, hx⟩ := List.mem_flatMap.1 hx
  cases o with
  | log l m => exact absurd ho (h l m)
  | set l c =>
    simp only [code, List.mem_cons, List.not_mem_nil, or_false] at hx
    rcases hx with rfl | rfl | rfl <;> simp
  | put st text =>
    simp only [code, List.mem_cons, List.not_mem_nil, or_false] at hx
    rw [hx]; simp

/-- C103: when callbacks log nothing and finitely many threads use the logger, they get to the end, whatever the order: there is no
endless run. -/
theorem logger_ends {body : Body} (hb : ∀ c m l m', Op.log l m' ∉ body c m) {cb : Level → Nat} {progs : Nat → List Op} {n : Nat}
    (hn : ∀ t, n ≤ t → progs t = []) {s : St} (h : Reach body (init cb progs) s) :
    Acc (fun a b => Next body b a) s := by
  have idle : ∀ t, n ≤ t → s.rest t = [] := by
    induction h with
    | start => intro t ht; simp [init, hn t ht]
    | @next s s' _ hs ih =>
      intro t ht
      have e := ih t ht
      cases hs with
      | acquire t' r e' hh => exact (upd_other fun c => by subst c; rw [e] at e'; cases e').trans e
      | release t' r e' hh => exact (upd_other fun c => by subst c; rw [e] at e'; cases e').trans e
      | call t' l m r e' => exact (upd_other fun c => by subst c; rw [e] at e'; cases e').trans e
      | ret t' l r e' => exact (upd_other fun c => by subst c; rw [e] at e'; cases e').trans e
      | assign t' l c' r e' => exact (upd_other fun c => by subst c; rw [e] at e'; cases e').trans e
      | assigned t' l r e' => exact (upd_other fun c => by subst c; rw [e] at e'; cases e').trans e
      | put t' st text r e' => exact (upd_other fun c => by subst c; rw [e] at e'; cases e').trans e
  clear h hn
  -- assignments are two steps
  let weight : List Step → Nat := fun r => (r.map fun | .assign .. => 2 | _ => 1).sum
  have wf : WellFounded (Prod.Lex (· < ·) (· < ·) : Nat × Nat → Nat × Nat → Prop) :=
    (Prod.lex ⟨_, Nat.lt_wfRel.wf⟩ ⟨_, Nat.lt_wfRel.wf⟩).wf
  have key : ∀ p : Nat × Nat, ∀ s : St, (∀ t, n ≤ t → s.rest t = []) → (total calls n s.rest, total weight n s.rest) = p →
      Acc (fun a b => Next body b a) s := by
    intro p
    induction p using wf.induction with
    | _ p ih =>
      intro s hi hp
      refine ⟨s, fun s' hs => ?_⟩
      have go : ∀ {t : Nat} {x : Step} {r r' : List Step}, s.rest t = x :: r → s'.rest = upd s.rest t r' →
          (calls r' < calls (x :: r) ∨ calls r' = calls (x :: r) ∧ weight r' < weight (x :: r)) →
          Acc (fun a b => Next body b a) s' := by
        intro t x r r' e e' hlt
        have ht : t < n := Classical.byContradiction fun c => by rw [hi t (by omega)] at e; cases e
        have h1 := total_upd calls s.rest r' n ht
        have h2 := total_upd weight s.rest r' n ht
        rw [e] at h1 h2
        refine ih _ ?_ s' (fun t' ht' => ?_) rfl
        · rw [← hp, e']
          rcases hlt with h | ⟨h3, h4⟩
          · exact .left _ _ (by omega)
          · rw [show total calls n (upd s.rest t r') = total calls n s.rest by omega]
            exact .right _ (by omega)
        · rw [e', upd_other (by omega)]; exact hi t' ht'
      have w1 : ∀ x r, weight (x :: r) = weight [x] + weight r := fun x r => by simp [weight]
      have c1 : ∀ x r, calls (x :: r) = calls [x] + calls r := fun x r => by
        simp only [calls, List.filter_cons]; split <;> simp [Nat.add_comm]
      cases hs with
      | acquire t r e hh => exact go e rfl (Or.inr ⟨rfl, by rw [w1]; simp [weight]⟩)
      | release t r e hh => exact go e rfl (Or.inr ⟨rfl, by rw [w1]; simp [weight]⟩)
      | ret t l r e => exact go e rfl (Or.inr ⟨rfl, by rw [w1]; simp [weight]⟩)
      | assigned t l r e => exact go e rfl (Or.inr ⟨rfl, by rw [w1]; simp [weight]⟩)
      | put t st text r e => exact go e rfl (Or.inr ⟨rfl, by rw [w1]; simp [weight]⟩)
      | assign t l c r e => exact go e rfl (Or.inr ⟨rfl, by rw [w1, w1 (.assign l c)]; simp [weight]⟩)
      | call t l m r e =>
        refine go e rfl (Or.inl ?_)
        have : calls ((body (s.callbacks l) m).flatMap code ++ .ret l :: r) = calls r := by
          have h0 := calls_codes (hb (s.callbacks l) m)
          unfold calls at h0 ⊢
          rw [List.filter_append, List.length_append, h0]
          simp
        rw [this, c1]
        simp [calls]
  exact key _ s idle rfl

/-! ### Races -/

/-- A step of a replacement. -/
def Step.replaces : Step → Bool
  | .assign .. | .assigned _ => true
  | _ => false

/-- Nothing is replaced before a call in progress has returned. -/
def Calm : List Step → Prop
  | [] => True
  | x :: r => (x.replaces = true → ∀ l, Step.ret l ∉ r) ∧ Calm r

theorem calm_append {a b : List Step} (ha : ∀ x ∈ a, x.replaces = false) (hb : Calm b) : Calm (a ++ b) := by
  induction a with
  | nil => exact hb
  | cons x a ih =>
    refine ⟨fun h => ?_, ih fun y hy => ha y (List.mem_cons_of_mem _ hy)⟩
    rw [ha x (by simp)] at h; cases h

theorem calm_of_no_ret {a : List Step} (h : ∀ l, Step.ret l ∉ a) : Calm a := by
  induction a with
  | nil => trivial
  | cons x a ih =>
    have h' : ∀ l, Step.ret l ∉ a := fun l hm => h l (List.mem_cons_of_mem _ hm)
    exact ⟨fun _ => h', ih h'⟩

theorem mem_codes {os : List Op} {x : Step} (h : x ∈ os.flatMap code) :
    x = .acquire ∨ x = .release ∨ (∃ l m, x = .call l m ∧ .log l m ∈ os) ∨ (∃ l c, x = .assign l c ∧ .set l c ∈ os)
      ∨ ∃ st text, x = .put st text := by
  obtain ⟨o, ho, hx⟩ := List.mem_flatMap.1 h
  cases o with
  | log l m =>
    simp only [code, List.mem_cons, List.not_mem_nil, or_false] at hx
    rcases hx with rfl | rfl | rfl
    · exact Or.inl rfl
    · exact Or.inr (Or.inl rfl)
    · exact Or.inr (Or.inr (Or.inl ⟨l, m, rfl, ho⟩))
  | set l c =>
    simp only [code, List.mem_cons, List.not_mem_nil, or_false] at hx
    rcases hx with rfl | rfl | rfl
    · exact Or.inl rfl
    · exact Or.inr (Or.inl rfl)
    · exact Or.inr (Or.inr (Or.inr (Or.inl ⟨l, c, rfl, ho⟩)))
  | put st text =>
    simp only [code, List.mem_cons, List.not_mem_nil, or_false] at hx
    exact Or.inr (Or.inr (Or.inr (Or.inr ⟨st, text, hx⟩)))

/-- What a thread still has to do keeps to the discipline. -/
structure Fair (owner : Level → Option Nat) (t : Nat) (r : List Step) : Prop where
  assign : ∀ l c, .assign l c ∈ r → owner l = some t
  assigned : ∀ l, .assigned l ∈ r → owner l = some t
  call : ∀ l m, .call l m ∈ r → owner l = none ∨ owner l = some t
  ret : ∀ l, .ret l ∈ r → owner l = none ∨ owner l = some t
  calm : Calm r
  tail : ∀ l, .assigned l ∉ r.tail

theorem Fair.cons_tail {owner : Level → Option Nat} {t : Nat} {x : Step} {r : List Step} (h : Fair owner t (x :: r)) :
    Fair owner t r :=
  ⟨fun l c hm => h.assign l c (List.mem_cons_of_mem _ hm), fun l hm => h.assigned l (List.mem_cons_of_mem _ hm),
    fun l m hm => h.call l m (List.mem_cons_of_mem _ hm), fun l hm => h.ret l (List.mem_cons_of_mem _ hm), h.calm.2,
    fun l hm => h.tail l (List.mem_of_mem_tail hm)⟩

theorem fair_reach {body : Body} {cb : Level → Nat} {progs : Nat → List Op} {owner : Level → Option Nat}
    (D : Disciplined body progs owner) {s : St} (h : Reach body (init cb progs) s) : ∀ t, Fair owner t (s.rest t) := by
  induction h with
  | start =>
    intro t
    have hm : ∀ x ∈ (progs t).flatMap code, _ := fun x hx => mem_codes hx
    have nr : ∀ l, Step.ret l ∉ (progs t).flatMap code := fun l hx => by
      rcases hm _ hx with h | h | ⟨_, _, h, -⟩ | ⟨_, _, h, -⟩ | ⟨_, _, h⟩ <;> cases h
    have na : ∀ l, Step.assigned l ∉ (progs t).flatMap code := fun l hx => by
      rcases hm _ hx with h | h | ⟨_, _, h, -⟩ | ⟨_, _, h, -⟩ | ⟨_, _, h⟩ <;> cases h
    refine ⟨fun l c hx => ?_, fun l hx => absurd hx (na l), fun l m hx => ?_, fun l hx => absurd hx (nr l), calm_of_no_ret nr,
      fun l hx => na l (List.mem_of_mem_tail hx)⟩
    · rcases hm _ hx with h | h | ⟨_, _, h, -⟩ | ⟨_, _, h, ho⟩ | ⟨_, _, h⟩ <;> cases h
      exact D.sets t l c ho
    · rcases hm _ hx with h | h | ⟨_, _, h, ho⟩ | ⟨_, _, h, -⟩ | ⟨_, _, h⟩ <;> cases h
      exact D.logs t l m ho
  | @next s s' _ hn ih =>
    have put : ∀ {t : Nat} {r : List Step}, Fair owner t r → ∀ t', Fair owner t' (upd s.rest t r t') := by
      intro t r h t'
      by_cases c : t' = t
      · subst c; rw [upd_same]; exact h
      · rw [upd_other c]; exact ih t'
    cases hn with
    | acquire t r e hh => exact put (e ▸ ih t).cons_tail
    | release t r e hh => exact put (e ▸ ih t).cons_tail
    | ret t l r e => exact put (e ▸ ih t).cons_tail
    | assigned t l r e => exact put (e ▸ ih t).cons_tail
    | put t st text r e => exact put (e ▸ ih t).cons_tail
    | assign t l c r e =>
      have F : Fair owner t (.assign l c :: r) := e ▸ ih t
      have G := F.cons_tail
      have ho := F.assign l c (by simp)
      refine put ⟨fun l' c' hm => ?_, fun l' hm => ?_, fun l' m hm => ?_, fun l' hm => ?_, ⟨fun _ => F.calm.1 rfl, F.calm.2⟩,
        fun l' hm => F.tail l' hm⟩
      · rcases List.mem_cons.1 hm with h | h
        · cases h
        · exact G.assign l' c' h
      · rcases List.mem_cons.1 hm with h | h
        · cases h; exact ho
        · exact G.assigned l' h
      · rcases List.mem_cons.1 hm with h | h
        · cases h
        · exact G.call l' m h
      · rcases List.mem_cons.1 hm with h | h
        · cases h
        · exact G.ret l' h
    | call t l m r e =>
      have F : Fair owner t (.call l m :: r) := e ▸ ih t
      have G := F.cons_tail
      have ho := F.call l m (by simp)
      have nb : ∀ x ∈ (body (s.callbacks l) m).flatMap code, x.replaces = false := by
        intro x hx
        rcases mem_codes hx with rfl | rfl | ⟨_, _, rfl, -⟩ | ⟨l', c', rfl, hm⟩ | ⟨_, _, rfl⟩
        · rfl
        · rfl
        · rfl
        · exact absurd hm (D.noSets _ _ l' c')
        · rfl
      have nt : ∀ l', Step.assigned l' ∉ r := fun l' hm => F.tail l' hm
      have na : ∀ l', Step.assigned l' ∉ (body (s.callbacks l) m).flatMap code ++ .ret l :: r := by
        intro l' hm
        rcases List.mem_append.1 hm with h | h
        · have := nb _ h; cases this
        · rcases List.mem_cons.1 h with h | h
          · cases h
          · exact nt l' h
      refine put ⟨fun l' c' hm => ?_, fun l' hm => absurd hm (na l'), fun l' m' hm => ?_, fun l' hm => ?_,
        calm_append nb ⟨(fun h => by cases h), G.calm⟩, fun l' hm => na l' (List.mem_of_mem_tail hm)⟩
      · rcases List.mem_append.1 hm with h | h
        · have := nb _ h; cases this
        · rcases List.mem_cons.1 h with h | h
          · cases h
          · exact G.assign l' c' h
      · rcases List.mem_append.1 hm with h | h
        · rcases mem_codes h with h | h | ⟨_, _, h, hb⟩ | ⟨_, _, h, -⟩ | ⟨_, _, h⟩ <;> cases h
          exact Or.inl (D.nested _ _ _ _ hb)
        · rcases List.mem_cons.1 h with h | h
          · cases h
          · exact G.call l' m' h
      · rcases List.mem_append.1 hm with h | h
        · rcases mem_codes h with h | h | ⟨_, _, h, -⟩ | ⟨_, _, h, -⟩ | ⟨_, _, h⟩ <;> cases h
        · rcases List.mem_cons.1 h with h | h
          · cases h; exact ho
          · exact G.ret l' h

/-- C103: under the discipline no callback is called, or replaced, while it is replaced. -/
theorem disciplined_no_race_partial {body : Body} {cb : Level → Nat} {progs : Nat → List Op} {owner : Level → Option Nat}
    (D : Disciplined body progs owner) {s : St} (h : Reach body (init cb progs) s) : ¬ Race s := by
  have F := fair_reach D h
  rintro ⟨t, l, hr, ⟨t', ht, h1⟩ | h1⟩
  · have ho := (F t).assigned l hr
    rcases h1 with h1 | h1
    · have := (F t').assigned l h1
      rw [ho] at this
      exact ht (Option.some.inj this).symm
    · rcases (F t').ret l h1 with h2 | h2
      · rw [ho] at h2; cases h2
      · rw [ho] at h2
        exact ht (Option.some.inj h2).symm
  · have G := F t
    have hr : Step.assigned l ∈ s.rest t := hr
    have h1 : Step.ret l ∈ s.rest t := h1
    generalize s.rest t = r at G hr h1
    cases r with
    | nil => cases hr
    | cons x r =>
      rcases List.mem_cons.1 hr with rfl | hr
      · rcases List.mem_cons.1 h1 with h1 | h1
        · cases h1
        · exact G.calm.1 rfl l h1
      · exact G.tail l hr

/-- C103: when nobody replaces a callback, nothing goes wrong inside the logger, however many threads log. -/
theorem logging_only_no_race {body : Body} {cb : Level → Nat} {progs : Nat → List Op} (hp : ∀ t l c, Op.set l c ∉ progs t)
    (hb : ∀ c m l c', Op.set l c' ∉ body c m) {s : St} (h : Reach body (init cb progs) s) : ¬ Race s :=
  disciplined_no_race_partial (owner := fun _ => none)
    ⟨fun t l c hm => absurd hm (hp t l c), fun _ _ _ _ => Or.inl rfl, fun _ _ _ _ _ => rfl, hb⟩ h

/-! ### Messages -/

/-- What the steps left are about. -/
def opsOf (r : List Step) : List Op := r.filterMap fun
  | .call l m => some (.log l m)
  | .assign l c => some (.set l c)
  | .put st text => some (.put st text)
  | _ => none

theorem opsOf_append (a b : List Step) : opsOf (a ++ b) = opsOf a ++ opsOf b := List.filterMap_append

theorem opsOf_codes (os : List Op) : opsOf (os.flatMap code) = os := by
  induction os with
  | nil => rfl
  | cons o os ih =>
    rw [List.flatMap_cons, opsOf_append, ih]
    cases o <;> rfl

theorem eventsOf_append (t : Nat) (a b : List (Nat × Event)) : eventsOf t (a ++ b) = eventsOf t a ++ eventsOf t b := by
  simp [eventsOf]

theorem eventsOf_same (t : Nat) (e : Event) : eventsOf t [(t, e)] = [e] := by simp [eventsOf]
theorem eventsOf_other {t t' : Nat} (e : Event) (h : t' ≠ t) : eventsOf t' [(t, e)] = [] := by
  simpa [eventsOf] using fun c : t = t' => h c.symm

/-- What `t` observed so far is the beginning of what it observes alone. -/
def Follows (body : Body) (cb : Level → Nat) (prog : List Op) (usable : Level → Prop) (t : Nat) (s : St) : Prop :=
  ∃ E, (∀ l, usable l → E l = s.callbacks l) ∧
    ∀ evs, Delivered body E (opsOf (s.rest t)) evs → Delivered body cb prog (eventsOf t s.out ++ evs)

/-- A step of `t`. -/
theorem follows_step {body : Body} {cb : Level → Nat} {prog : List Op} {usable : Level → Prop} {t : Nat} {s : St}
    (F : Follows body cb prog usable t s) {x : Step} {r : List Step} (e : s.rest t = x :: r) (hx : opsOf [x] = []) {s' : St}
    (e1 : s'.rest = upd s.rest t r) (e2 : s'.callbacks = s.callbacks) (e3 : s'.out = s.out) :
    Follows body cb prog usable t s' := by
  obtain ⟨E, hE, hF⟩ := F
  refine ⟨E, by rw [e2]; exact hE, fun evs he => ?_⟩
  rw [e1, upd_same] at he
  rw [e3]
  apply hF
  rw [e, show x :: r = [x] ++ r from rfl, opsOf_append, hx]
  exact he

theorem follows_call {body : Body} {cb : Level → Nat} {prog : List Op} {usable : Level → Prop} {t : Nat} {s : St}
    (F : Follows body cb prog usable t s) {l : Level} {m : Msg} {r : List Step} (e : s.rest t = .call l m :: r) (hl : usable l) :
    Follows body cb prog usable t { s with rest := upd s.rest t ((body (s.callbacks l) m).flatMap code ++ .ret l :: r),
                                           out := s.out ++ [(t, .called l (s.callbacks l) m)] } := by
  obtain ⟨E, hE, hF⟩ := F
  refine ⟨E, hE, fun evs he => ?_⟩
  simp only [upd_same] at he
  rw [opsOf_append, opsOf_codes] at he
  rw [eventsOf_append, eventsOf_same, List.append_assoc]
  apply hF
  rw [e, ← hE l hl]
  rw [← hE l hl] at he
  exact .log he

theorem follows_assign {body : Body} {cb : Level → Nat} {prog : List Op} {usable : Level → Prop} {t : Nat} {s : St}
    (F : Follows body cb prog usable t s) {l : Level} {c : Nat} {r : List Step} (e : s.rest t = .assign l c :: r) :
    Follows body cb prog usable t { s with callbacks := upd s.callbacks l c, rest := upd s.rest t (.assigned l :: r) } := by
  obtain ⟨E, hE, hF⟩ := F
  refine ⟨fun k => if k = l then c else E k, fun k hk => ?_, fun evs he => ?_⟩
  · by_cases h : k = l
    · subst h; simp [upd]
    · simp [upd, h, hE k hk]
  · simp only [upd_same] at he
    apply hF
    rw [e]
    exact .set he

theorem follows_put {body : Body} {cb : Level → Nat} {prog : List Op} {usable : Level → Prop} {t : Nat} {s : St}
    (F : Follows body cb prog usable t s) {st : Stream} {text : String} {r : List Step} (e : s.rest t = .put st text :: r) :
    Follows body cb prog usable t { s with rest := upd s.rest t r, out := s.out ++ [(t, .wrote st text)] } := by
  obtain ⟨E, hE, hF⟩ := F
  refine ⟨E, hE, fun evs he => ?_⟩
  simp only [upd_same] at he
  rw [eventsOf_append, eventsOf_same, List.append_assoc]
  apply hF
  rw [e]
  exact .put he

/-- A step of another thread. -/
theorem follows_other {body : Body} {cb : Level → Nat} {prog : List Op} {usable : Level → Prop} {t : Nat} {s s' : St}
    (F : Follows body cb prog usable t s) (e1 : s'.rest t = s.rest t) (e2 : ∀ l, usable l → s'.callbacks l = s.callbacks l)
    (e3 : eventsOf t s'.out = eventsOf t s.out) : Follows body cb prog usable t s' := by
  obtain ⟨E, hE, hF⟩ := F
  refine ⟨E, fun l hl => by rw [e2 l hl]; exact hE l hl, fun evs he => ?_⟩
  rw [e3]; rw [e1] at he
  exact hF evs he

theorem follows_start (body : Body) (cb : Level → Nat) (progs : Nat → List Op) (usable : Level → Prop) (t : Nat) :
    Follows body cb (progs t) usable t (init cb progs) := by
  refine ⟨cb, fun _ _ => rfl, fun evs he => ?_⟩
  have : opsOf ((progs t).flatMap code) = progs t := opsOf_codes _
  simp only [init, this] at he
  exact he

theorem follows_reach {body : Body} {cb : Level → Nat} {progs : Nat → List Op} {owner : Level → Option Nat}
    (D : Disciplined body progs owner) {s : St} (h : Reach body (init cb progs) s) :
    ∀ t, Follows body cb (progs t) (fun l => owner l = none ∨ owner l = some t) t s := by
  induction h with
  | start => exact fun t => follows_start _ _ _ _ _
  | @next s s' h0 hn ih =>
    have G := fair_reach D h0
    intro t'
    cases hn with
    | acquire t r e hh =>
      by_cases c : t' = t
      · subst c; exact follows_step (ih t') e rfl rfl rfl rfl
      · exact follows_other (ih t') (upd_other c) (fun _ _ => rfl) rfl
    | release t r e hh =>
      by_cases c : t' = t
      · subst c; exact follows_step (ih t') e rfl rfl rfl rfl
      · exact follows_other (ih t') (upd_other c) (fun _ _ => rfl) rfl
    | ret t l r e =>
      by_cases c : t' = t
      · subst c; exact follows_step (ih t') e rfl rfl rfl rfl
      · exact follows_other (ih t') (upd_other c) (fun _ _ => rfl) rfl
    | assigned t l r e =>
      by_cases c : t' = t
      · subst c; exact follows_step (ih t') e rfl rfl rfl rfl
      · exact follows_other (ih t') (upd_other c) (fun _ _ => rfl) rfl
    | put t st text r e =>
      by_cases c : t' = t
      · subst c; exact follows_put (ih t') e
      · exact follows_other (ih t') (upd_other c) (fun _ _ => rfl) (by simp only [eventsOf_append, eventsOf_other _ c, List.append_nil])
    | call t l m r e =>
      by_cases c : t' = t
      · subst c; exact follows_call (ih t') e ((G t').call l m (by rw [e]; simp))
      · exact follows_other (ih t') (upd_other c) (fun _ _ => rfl) (by simp only [eventsOf_append, eventsOf_other _ c, List.append_nil])
    | assign t l k r e =>
      by_cases c : t' = t
      · subst c; exact follows_assign (ih t') e
      · refine follows_other (ih t') (upd_other c) (fun l' hl' => upd_other fun h => ?_) rfl
        subst h
        have ho := (G t).assign l' k (by rw [e]; simp)
        rw [ho] at hl'
        rcases hl' with h | h
        · cases h
        · exact c (Option.some.inj h).symm

/-- C103: under the discipline each thread observes what it would alone: each of its messages reaches once, in order, the callback it
set last for the level (or the one there from the start), whatever the other threads do meanwhile. -/
theorem messages_delivered_partial {body : Body} {cb : Level → Nat} {progs : Nat → List Op} {owner : Level → Option Nat}
    (D : Disciplined body progs owner) {s : St} (h : Reach body (init cb progs) s) (t : Nat) (ht : s.rest t = []) :
    Delivered body cb (progs t) (eventsOf t s.out) := by
  obtain ⟨E, -, hF⟩ := follows_reach D h t
  have := hF [] (by rw [ht]; exact .nil E)
  rwa [List.append_nil] at this

/-- C103: the same without discipline when a single thread uses the logger; callbacks may then log and set callbacks. -/
theorem alone_delivered {body : Body} {cb : Level → Nat} {progs : Nat → List Op} (t : Nat) (ha : ∀ t', t' ≠ t → progs t' = [])
    {s : St} (h : Reach body (init cb progs) s) (ht : s.rest t = []) : Delivered body cb (progs t) (eventsOf t s.out) := by
  have key : Follows body cb (progs t) (fun _ => True) t s ∧ ∀ t', t' ≠ t → s.rest t' = [] := by
    clear ht
    induction h with
    | start => exact ⟨follows_start _ _ _ _ _, fun t' c => by simp [init, ha t' c]⟩
    | @next s s' _ hn ih =>
      obtain ⟨F, hr⟩ := ih
      have same : ∀ {t' : Nat} {x : Step} {r : List Step}, s.rest t' = x :: r → t' = t := fun {t'} _ _ e =>
        Classical.byContradiction fun c => by rw [hr t' c] at e; cases e
      have hr' : ∀ {r : List Step} (t' : Nat), t' ≠ t → upd s.rest t r t' = [] := fun t' c => by rw [upd_other c]; exact hr t' c
      cases hn with
      | acquire t1 r e hh => obtain rfl := same e; exact ⟨follows_step F e rfl rfl rfl rfl, hr'⟩
      | release t1 r e hh => obtain rfl := same e; exact ⟨follows_step F e rfl rfl rfl rfl, hr'⟩
      | ret t1 l r e => obtain rfl := same e; exact ⟨follows_step F e rfl rfl rfl rfl, hr'⟩
      | assigned t1 l r e => obtain rfl := same e; exact ⟨follows_step F e rfl rfl rfl rfl, hr'⟩
      | put t1 st text r e => obtain rfl := same e; exact ⟨follows_put F e, hr'⟩
      | call t1 l m r e => obtain rfl := same e; exact ⟨follows_call F e trivial, hr'⟩
      | assign t1 l k r e => obtain rfl := same e; exact ⟨follows_assign F e, hr'⟩
  obtain ⟨E, -, hF⟩ := key.1
  have := hF [] (by rw [ht]; exact .nil E)
  rwa [List.append_nil] at this

/-- A program has one outcome. -/
theorem delivered_unique {body : Body} {E : Level → Nat} {os : List Op} {a b : List Event} (ha : Delivered body E os a)
    (hb : Delivered body E os b) : a = b := by
  induction ha generalizing b with
  | nil E => cases hb; rfl
  | log _ ih => cases hb with | log h => rw [ih h]
  | set _ ih => cases hb with | set h => exact ih h
  | put _ ih => cases hb with | put h => rw [ih h]

/-! ### The default callbacks -/

theorem textOf_append (st : Stream) (a b : List (Nat × Event)) : textOf st (a ++ b) = textOf st a ++ textOf st b := by
  simp [textOf, List.filterMap_append]

/-- What the default callbacks of a level write. -/
theorem default_body (user : Body) (l : Level) (m : Msg) : bodyOf user (defaults l) m = doLog l.stream m := by cases l <;> rfl

theorem default_alone (user : Body) (st : Stream) (t : Nat) : ∀ (ms : List (Level × Msg)) (evs : List Event),
    Delivered (bodyOf user) defaults (ms.map fun x => .log x.1 x.2) evs → textOf st (evs.map (t, ·)) = textAt st ms
  | [], evs, h => by cases h; rfl
  | (l, m) :: ms, evs, h => by
    cases h with
    | log h =>
      rw [default_body] at h
      have one : ∀ s x es, textOf st (((t, .wrote s x) : Nat × Event) :: es) = (if s = st then x else "") ++ textOf st es := by
        intro s x es
        by_cases c : s = st <;> simp [textOf, c]
      have called : ∀ l c m es, textOf st (((t, .called l c m) : Nat × Event) :: es) = textOf st es := fun _ _ _ _ => rfl
      have step : textAt st ((l, m) :: ms) = (if l.stream = st then m.text ++ (if m.newLine then "\n" else "") else "") ++ textAt st ms := by
        by_cases c : l.stream = st <;> simp [textAt, c]
      rw [step, List.map_cons, called]
      unfold doLog at h
      by_cases hn : m.newLine = true
      · rw [if_pos hn] at h
        cases h with
        | put h =>
          cases h with
          | put h =>
            rw [List.map_cons, List.map_cons, one, one, default_alone user st t ms _ h, if_pos hn]
            by_cases c : l.stream = st <;> simp [c, String.append_assoc]
      · rw [if_neg hn] at h
        cases h with
        | put h =>
          rw [List.map_cons, one, default_alone user st t ms _ h, if_neg hn]
          by_cases c : l.stream = st <;> simp [c]

/-- C103: with the default callbacks the messages of a thread come out on the stream of their level, in order, with their line ends;
`st` receives nothing else from that thread. -/
theorem default_text {user : Body} {progs : Nat → List Op} (D : Disciplined (bodyOf user) progs fun _ => none) {s : St}
    (h : Reach (bodyOf user) (init defaults progs) s) {t : Nat} (ht : s.rest t = []) {ms : List (Level × Msg)}
    (hm : progs t = ms.map fun x => .log x.1 x.2) (st : Stream) : textOf st (s.out.filter (·.1 = t)) = textAt st ms := by
  have hd := messages_delivered_partial D h t ht
  rw [hm] at hd
  rw [← default_alone user st t ms _ hd]
  congr 1
  unfold eventsOf
  rw [List.map_map]
  symm
  conv => rhs; rw [← List.map_id (s.out.filter (·.1 = t))]
  apply List.map_congr_left
  intro x hx
  have := (List.mem_filter.1 hx).2
  simp only [decide_eq_true_eq] at this
  simp [← this]

/-! ### Examples, and where it fails -/

instance (s : St) (t : Nat) (l : Level) : Decidable (Calling s t l) := inferInstanceAs (Decidable (_ ∈ _))
instance (s : St) (t : Nat) (l : Level) : Decidable (Replacing s t l) := inferInstanceAs (Decidable (_ ∈ _))

/-- The next step of a thread. -/
def go (body : Body) (s : St) (t : Nat) : Option St :=
  match s.rest t with
  | [] => none
  | .acquire :: r => if s.holder = none then some { s with holder := some t, rest := upd s.rest t r } else none
  | .release :: r => if s.holder = some t then some { s with holder := none, rest := upd s.rest t r } else none
  | .call l m :: r => some { s with rest := upd s.rest t ((body (s.callbacks l) m).flatMap code ++ .ret l :: r),
                                    out := s.out ++ [(t, .called l (s.callbacks l) m)] }
  | .ret _ :: r => some { s with rest := upd s.rest t r }
  | .assign l c :: r => some { s with callbacks := upd s.callbacks l c, rest := upd s.rest t (.assigned l :: r) }
  | .assigned _ :: r => some { s with rest := upd s.rest t r }
  | .put st text :: r => some { s with rest := upd s.rest t r, out := s.out ++ [(t, .wrote st text)] }

/-- Threads take turns. -/
def goes (body : Body) (s : St) : List Nat → Option St
  | [] => some s
  | t :: ts => (go body s t).bind fun s => goes body s ts

theorem go_next {body : Body} {s s' : St} {t : Nat} (h : go body s t = some s') : Next body s s' := by
  unfold go at h
  split at h
  · cases h
  · rename_i r e
    by_cases c : s.holder = none
    · rw [if_pos c] at h; obtain rfl := Option.some.inj h; exact .acquire s t r e c
    · rw [if_neg c] at h; cases h
  · rename_i r e
    by_cases c : s.holder = some t
    · rw [if_pos c] at h; obtain rfl := Option.some.inj h; exact .release s t r e c
    · rw [if_neg c] at h; cases h
  · rename_i l m r e; obtain rfl := Option.some.inj h; exact .call s t l m r e
  · rename_i l r e; obtain rfl := Option.some.inj h; exact .ret s t l r e
  · rename_i l c r e; obtain rfl := Option.some.inj h; exact .assign s t l c r e
  · rename_i l r e; obtain rfl := Option.some.inj h; exact .assigned s t l r e
  · rename_i st text r e; obtain rfl := Option.some.inj h; exact .put s t st text r e

theorem goes_reach {body : Body} {s0 : St} : ∀ (ts : List Nat) {s s' : St}, Reach body s0 s → goes body s ts = some s' →
    Reach body s0 s'
  | [], _, _, h, e => by obtain rfl := Option.some.inj e; exact h
  | t :: ts, s, s', h, e => by
    obtain ⟨s1, h1, h2⟩ := Option.bind_eq_some_iff.1 e
    exact goes_reach ts (.next h (go_next h1)) h2

/-- Callback 5 repeats what it receives as information; callback 6 sets the callback for information. -/
def exUser : Body
  | 5, m => [.log .info m]
  | 6, _ => [.set .info 5]
  | _, _ => []

/-- Programs of three threads: the first one owns the debug level. -/
def exProgs : Nat → List Op
  | 0 => [.log .debug ⟨"a", true⟩, .set .debug 5, .log .debug ⟨"b", true⟩]
  | 1 => [.log .info ⟨"c", true⟩, .log .error ⟨"d", false⟩]
  | 2 => [.log .trace ⟨"e", true⟩]
  | _ => []

/-- Callback 5 alone. -/
def exUser5 : Body
  | 5, m => [.log .info m]
  | _, _ => []

def exOwner : Level → Option Nat
  | .debug => some 0
  | _ => none

theorem exProgs_disciplined : Disciplined (bodyOf exUser5) exProgs exOwner := by
  have nested : ∀ c m, ∀ o ∈ bodyOf exUser5 c m, (∃ st text, o = .put st text) ∨ o = .log .info m := by
    intro c m o ho
    have doLog_mem : ∀ st, o ∈ doLog st m → ∃ st text, o = .put st text := by
      intro st ho
      unfold doLog at ho
      rcases List.mem_cons.1 ho with h | h
      · exact ⟨_, _, h⟩
      · by_cases c : m.newLine = true
        · rw [if_pos c] at h; exact ⟨_, _, List.mem_singleton.1 h⟩
        · rw [if_neg c] at h; cases h
    unfold bodyOf at ho
    split at ho
    · exact Or.inl (doLog_mem _ ho)
    · exact Or.inl (doLog_mem _ ho)
    · exact Or.inl (doLog_mem _ ho)
    · unfold exUser5 at ho
      split at ho
      · exact Or.inr (List.mem_singleton.1 ho)
      · cases ho
  refine ⟨fun t l c h => ?_, fun t l m h => ?_, fun c m l m' h => ?_, fun c m l c' h => ?_⟩
  · unfold exProgs at h
    split at h <;> simp at h
    rw [h.1]; rfl
  · unfold exProgs at h
    split at h <;> simp at h
    · rcases h with h | h <;> (rw [h.1]; exact Or.inr rfl)
    · rcases h with h | h <;> (rw [h.1]; exact Or.inl rfl)
    · rw [h.1]; exact Or.inl rfl
  · rcases nested c m _ h with ⟨_, _, e⟩ | e <;> cases e
    rfl
  · rcases nested c m _ h with ⟨_, _, e⟩ | e <;> cases e

/-- The programs come to an end, having written this. -/
theorem exProgs_end : ∃ s, Reach (bodyOf exUser5) (init defaults exProgs) s ∧ (s.rest 0 = [] ∧ s.rest 1 = [] ∧ s.rest 2 = []) ∧
    textOf .clog s.out = "ea\n\n" ∧ textOf .cout s.out = "cb\n\n" ∧ textOf .cerr s.out = "d" :=
  ⟨_, goes_reach [0, 0, 0, 2, 2, 2, 2, 0, 2, 0, 2, 0, 0, 0, 0, 0, 0, 0, 0, 0, 0, 0, 1, 1, 1, 1, 0, 0, 1, 0, 0, 1, 1, 1, 1, 1, 1] .start
    rfl, by decide +kernel, by decide +kernel, by decide +kernel, by decide +kernel⟩

/-- C103 fails when a callback is replaced while another thread logs to its level: the mutex is not held during either. -/
theorem set_races_with_log : ∃ s, Reach (bodyOf exUser) (init defaults fun t => if t = 0 then [.log .info ⟨"a", true⟩]
    else if t = 1 then [.set .info 5] else []) s ∧ Race s :=
  ⟨_, goes_reach [0, 0, 0, 1, 1, 1] .start rfl, 1, .info, by decide, Or.inl ⟨0, by decide, Or.inr (by decide)⟩⟩

/-- C103 fails when a callback replaces itself: it is destroyed while it runs. -/
theorem set_in_callback_races : ∃ s, Reach (bodyOf exUser) (init defaults fun t => if t = 0 then
    [.set .info 6, .log .info ⟨"a", true⟩] else []) s ∧ Race s :=
  ⟨_, goes_reach [0, 0, 0, 0, 0, 0, 0, 0, 0, 0] .start rfl, 0, .info, by decide, Or.inr (by decide)⟩

/-- The logger doesn't keep two threads out of the same callback, which has to cope with that itself… -/
theorem callback_called_twice_at_once : ∃ s, Reach (bodyOf exUser) (init defaults fun t => if t ≤ 1 then
    [.log .info ⟨"a", true⟩] else []) s ∧ Calling s 0 .info ∧ Calling s 1 .info :=
  ⟨_, goes_reach [0, 0, 0, 1, 1, 1] .start rfl, by decide, by decide⟩

/-- …so lines of different threads get mixed: nothing but the order of each thread's own messages is certain. -/
theorem lines_mixed : ∃ s, Reach (bodyOf exUser) (init defaults fun t => if t = 0 then [.log .info ⟨"a", true⟩]
    else if t = 1 then [.log .warning ⟨"b", true⟩] else []) s ∧ (s.rest 0 = [] ∧ s.rest 1 = []) ∧ textOf .cout s.out = "ab\n\n" :=
  ⟨_, goes_reach [0, 0, 0, 1, 1, 1, 0, 1, 0, 1, 0, 1] .start rfl, by decide, by decide⟩

end Verif.Logger
