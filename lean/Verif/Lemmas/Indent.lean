import Verif.Spec.Indent
/- The invariant of the indent buffers. -/
namespace Verif.Ind
open Verif.Dot (Stream)

@[simp] theorem upd_same {α} (f : Nat → α) (k : Nat) (x : α) : upd f k x k = x := if_pos rfl
theorem upd_ne {α} (f : Nat → α) {k j : Nat} (x : α) (h : j ≠ k) : upd f k x j = f j := if_neg h

/-- What is the matter with an address. -/
inductive Phase where
  | absent
  | plain (t : Nat)
  | inserting (t b : Nat) (i : Int)
  | installing (t b : Nat) (i : Int)
  | registering (t b : Nat) (i : Int)
  | ready (t b : Nat)
  | looking (t b : Nat)
  | deleting (t b : Nat)
  | erasing (t b : Nat)
  | releasing (t : Nat)

def Phase.thread : Phase → Option Nat
  | .absent => none
  | .plain t | .inserting t _ _ | .installing t _ _ | .registering t _ _ | .ready t _ | .looking t _ | .deleting t _
  | .erasing t _ | .releasing t => some t

def Phase.buf : Phase → Option Nat
  | .inserting _ b _ | .installing _ b _ | .registering _ b _ | .ready _ b | .looking _ b | .deleting _ b => some b
  | _ => none

def Phase.opened (t : Nat) : Phase → Bool
  | .plain u | .inserting u _ _ | .installing u _ _ | .registering u _ _ | .ready u _ => decide (u = t)
  | _ => false

theorem opened_thread {t : Nat} {p : Phase} (h : p.opened t = true) : p.thread = some t := by
  cases p <;> simp_all [Phase.opened, Phase.thread]

def Fits (w : World) (a : Nat) : Phase → Prop
  | .absent => w.streams a = none ∧ w.table a = none
  | .plain _ => (∃ tx, w.streams a = some ⟨tx, none, 0⟩) ∧ w.table a = none
  | .inserting t b i => (∃ tx, w.streams a = some ⟨tx, none, 0⟩) ∧ w.table a = none ∧ w.heap b = some (0, true) ∧ w.pc t = .insert a b i
  | .installing t b i =>
    (∃ tx, w.streams a = some ⟨tx, none, 0⟩) ∧ w.table a = some b ∧ w.heap b = some (0, true) ∧ w.pc t = .install a b i
  | .registering t b i =>
    (∃ tx, w.streams a = some ⟨tx, some b, 0⟩) ∧ w.table a = some b ∧ w.heap b = some (0, true) ∧ w.pc t = .register a b i
  | .ready _ b => (∃ tx, w.streams a = some ⟨tx, some b, 1⟩) ∧ w.table a = some b ∧ ∃ c, w.heap b = some c
  | .looking t b => (∃ o, w.streams a = some o) ∧ w.table a = some b ∧ (∃ c, w.heap b = some c) ∧ w.pc t = .look a 1
  | .deleting t b => (∃ o, w.streams a = some o) ∧ w.table a = some b ∧ (∃ c, w.heap b = some c) ∧ w.pc t = .delete a 1 (some b)
  | .erasing t b => (∃ o, w.streams a = some o) ∧ w.table a = some b ∧ w.pc t = .erase a 1
  | .releasing t => (∃ o, w.streams a = some o) ∧ w.table a = none ∧ w.pc t = .release a

/-- Where a thread is, its address is. -/
def AtPc (ph : Nat → Phase) (t : Nat) : Pc → Prop
  | .idle => True
  | .insert a b i => ph a = .inserting t b i
  | .install a b i => ph a = .installing t b i
  | .register a b i => ph a = .registering t b i
  | .look a n => n = 1 ∧ ∃ b, ph a = .looking t b
  | .delete a n ob => n = 1 ∧ ∃ b, ob = some b ∧ ph a = .deleting t b
  | .erase a n => n = 1 ∧ ∃ b, ph a = .erasing t b
  | .release a => ph a = .releasing t

def Pc.addr : Pc → Option Nat
  | .idle => none
  | .insert a _ _ | .install a _ _ | .register a _ _ | .look a _ | .delete a _ _ | .erase a _ | .release a => some a

/-- What is still to be seen of the operation a thread is in. -/
def Pc.pend : Pc → List Op
  | .insert a _ i | .install a _ i | .register a _ i => [.indent a i]
  | _ => []

def abs (w : World) (a : Nat) : Stream :=
  match w.streams a with
  | none => {}
  | some o => ⟨o.text, o.rdbuf.bind w.heap⟩

structure Inv (prog : Nat → List Op) (w : World) (ph : Nat → Phase) : Prop where
  fits : ∀ a, Fits w a (ph a)
  inj : ∀ a a' b, (ph a).buf = some b → (ph a').buf = some b → a = a'
  used : ∀ b, w.heap b ≠ none → ∃ a, (ph a).buf = some b
  fresh : ∀ a b, (ph a).buf = some b → b < w.next
  at_ : ∀ t, AtPc ph t (w.pc t)
  uses : ∀ t, Uses (fun a => (ph a).opened t) (w.rest t)
  lft : ∀ t, left (fun a => (ph a).opened t) (w.rest t) = left (fun _ => false) (prog t)
  text : ∀ t, w.out t ++ alone (abs w) ((w.pc t).pend ++ w.rest t) = alone (fun _ => {}) (prog t)
  ok : w.fault = false

theorem alone_congr : ∀ (r : List Op) (mine : Nat → Bool) (s s' : Nat → Stream), Uses mine r → (∀ a, mine a = true → s a = s' a) →
    alone s r = alone s' r
  | [], _, _, _, _, _ => rfl
  | .create a :: r, mine, s, s', h, e => by
    refine alone_congr r _ _ _ h.2 fun x hx => ?_
    by_cases hxa : x = a
    · subst hxa; simp
    · rw [upd_ne _ _ hxa] at hx ⊢
      rw [upd_ne _ _ hxa]
      exact e x hx
  | .indent a i :: r, mine, s, s', h, e => by
    refine alone_congr r _ _ _ h.2 fun x hx => ?_
    by_cases hxa : x = a
    · subst hxa; simp [e x h.1]
    · rw [upd_ne _ _ hxa, upd_ne _ _ hxa]
      exact e x hx
  | .put a i :: r, mine, s, s', h, e => by
    refine alone_congr r _ _ _ h.2 fun x hx => ?_
    by_cases hxa : x = a
    · subst hxa; simp [e x h.1]
    · rw [upd_ne _ _ hxa, upd_ne _ _ hxa]
      exact e x hx
  | .destroy a :: r, mine, s, s', h, e => by
    show (s a).text :: _ = (s' a).text :: _
    rw [e a h.1]
    refine congrArg _ (alone_congr r _ _ _ h.2 fun x hx => ?_)
    by_cases hxa : x = a
    · subst hxa; simp at hx
    · rw [upd_ne _ _ hxa] at hx
      exact e x hx

theorem uses_pend {prog : Nat → List Op} {w : World} {ph : Nat → Phase} (h : Inv prog w ph) (t : Nat) :
    Uses (fun a => (ph a).opened t) ((w.pc t).pend ++ w.rest t) := by
  have ha := h.at_ t
  have hu := h.uses t
  cases hp : w.pc t <;> rw [hp] at ha <;> simp only [AtPc] at ha <;> simp only [Pc.pend, List.cons_append, List.nil_append] <;>
    first
    | exact hu
    | exact ⟨by simp [ha, Phase.opened], hu⟩

/-- What one thread does at one address. -/
structure Change (w : World) (ph : Nat → Phase) (t a : Nat) (p : Phase) (w' : World) : Prop where
  thread : (ph a).thread = none ∨ (ph a).thread = some t
  thread' : p.thread = none ∨ p.thread = some t
  pc : w.pc t = .idle ∨ (w.pc t).addr = some a
  streams : ∀ x, x ≠ a → w'.streams x = w.streams x
  table : ∀ x, x ≠ a → w'.table x = w.table x
  heap : ∀ b, (ph a).buf ≠ some b → p.buf ≠ some b → w'.heap b = w.heap b
  gone : ∀ b, w'.heap b ≠ none → (ph a).buf = some b → p.buf = some b
  new : ∀ b, p.buf = some b → (ph a).buf = some b ∨ (b = w.next ∧ w'.next = w.next + 1)
  next : w.next ≤ w'.next
  pcs : ∀ u, u ≠ t → w'.pc u = w.pc u
  rests : ∀ u, u ≠ t → w'.rest u = w.rest u
  outs : ∀ u, u ≠ t → w'.out u = w.out u
  fit : Fits w' a p
  at_ : AtPc (upd ph a p) t (w'.pc t)
  ok : w'.fault = false

theorem Change.heap_same {prog w ph t a p w'} (h : Inv prog w ph) (c : Change w ph t a p w') {x b : Nat} (hx : x ≠ a)
    (hb : (ph x).buf = some b) : w'.heap b = w.heap b := by
  refine c.heap b (fun e => hx (h.inj x a b hb e)) fun e => ?_
  rcases c.new b e with e' | e'
  · exact hx (h.inj x a b hb e')
  · exact absurd (h.fresh x b hb) (by omega)

theorem Change.abs_same {prog w ph t a p w'} (h : Inv prog w ph) (c : Change w ph t a p w') {x u : Nat} (hx : x ≠ a)
    (ho : (ph x).opened u = true) : abs w' x = abs w x := by
  have hf := h.fits x
  have hh : ∀ b, (ph x).buf = some b → w'.heap b = w.heap b := fun b hb => c.heap_same h hx hb
  unfold abs
  rw [c.streams x hx]
  revert ho hf hh
  cases ph x <;> simp only [Phase.opened, Fits, Phase.buf] <;> intro ho hf hh
  all_goals first
    | exact absurd ho Bool.false_ne_true
    | (obtain ⟨⟨tx, e⟩, _⟩ := hf; rw [e]; first | rfl | simp [hh _ rfl])

theorem Change.pc_other {w ph t a p w'} (c : Change w ph t a p w') {x u : Nat} (hx : x ≠ a)
    (hu : (w.pc u).addr = some x) : w'.pc u = w.pc u := by
  refine c.pcs u fun e => ?_
  subst e
  rcases c.pc with e | e
  · rw [e] at hu; exact nomatch hu
  · rw [e] at hu; exact hx (Option.some.inj hu).symm

theorem Change.inv {prog w ph t a p w'} (h : Inv prog w ph) (c : Change w ph t a p w')
    (uses : Uses (fun x => (upd ph a p x).opened t) (w'.rest t))
    (lft : left (fun x => (upd ph a p x).opened t) (w'.rest t) = left (fun _ => false) (prog t))
    (text : w'.out t ++ alone (abs w') ((w'.pc t).pend ++ w'.rest t) = alone (fun _ => {}) (prog t)) : Inv prog w' (upd ph a p) := by
  have hop : ∀ u, u ≠ t → (fun x => (upd ph a p x).opened u) = fun x => (ph x).opened u := by
    intro u hu
    funext x
    by_cases hx : x = a
    · subst hx
      rw [upd_same]
      have h1 : p.opened u = false := by
        cases e : p.opened u with
        | false => rfl
        | true =>
          have := opened_thread e
          rcases c.thread' with e' | e' <;> rw [e'] at this
          · exact nomatch this
          · exact absurd (Option.some.inj this).symm hu
      have h2 : (ph x).opened u = false := by
        cases e : (ph x).opened u with
        | false => rfl
        | true =>
          have := opened_thread e
          rcases c.thread with e' | e' <;> rw [e'] at this
          · exact nomatch this
          · exact absurd (Option.some.inj this).symm hu
      rw [h1, h2]
    · rw [upd_ne _ _ hx]
  refine ⟨fun x => ?_, fun x y b hx hy => ?_, fun b hb => ?_, fun x b hx => ?_, fun u => ?_, fun u => ?_, fun u => ?_, fun u => ?_, c.ok⟩
  · by_cases hx : x = a
    · subst hx; rw [upd_same]; exact c.fit
    · rw [upd_ne _ _ hx]
      have hf := h.fits x
      have hh : ∀ b, (ph x).buf = some b → w'.heap b = w.heap b := fun b hb => c.heap_same h hx hb
      have hp : ∀ u, (w.pc u).addr = some x → w'.pc u = w.pc u := fun u hu => c.pc_other hx hu
      revert hf hh
      cases ph x <;> simp only [Fits, Phase.buf, c.streams x hx, c.table x hx] <;> intro hf hh
      · exact hf
      · exact hf
      · obtain ⟨h1, h2, h3, h4⟩ := hf
        exact ⟨h1, h2, by rw [hh _ rfl]; exact h3, by rw [hp _ (by rw [h4]; rfl)]; exact h4⟩
      · obtain ⟨h1, h2, h3, h4⟩ := hf
        exact ⟨h1, h2, by rw [hh _ rfl]; exact h3, by rw [hp _ (by rw [h4]; rfl)]; exact h4⟩
      · obtain ⟨h1, h2, h3, h4⟩ := hf
        exact ⟨h1, h2, by rw [hh _ rfl]; exact h3, by rw [hp _ (by rw [h4]; rfl)]; exact h4⟩
      · obtain ⟨h1, h2, h3⟩ := hf
        exact ⟨h1, h2, by rw [hh _ rfl]; exact h3⟩
      · obtain ⟨h1, h2, h3, h4⟩ := hf
        exact ⟨h1, h2, by rw [hh _ rfl]; exact h3, by rw [hp _ (by rw [h4]; rfl)]; exact h4⟩
      · obtain ⟨h1, h2, h3, h4⟩ := hf
        exact ⟨h1, h2, by rw [hh _ rfl]; exact h3, by rw [hp _ (by rw [h4]; rfl)]; exact h4⟩
      · obtain ⟨h1, h2, h4⟩ := hf
        exact ⟨h1, h2, by rw [hp _ (by rw [h4]; rfl)]; exact h4⟩
      · obtain ⟨h1, h2, h4⟩ := hf
        exact ⟨h1, h2, by rw [hp _ (by rw [h4]; rfl)]; exact h4⟩
  · have hne : ∀ z, z ≠ a → (ph z).buf = some b → p.buf ≠ some b := by
      intro z hz hb e
      rcases c.new b e with e' | e'
      · exact hz (h.inj z a b hb e')
      · exact absurd (h.fresh z b hb) (by omega)
    by_cases hxa : x = a <;> by_cases hya : y = a
    · rw [hxa, hya]
    · subst hxa; rw [upd_same] at hx; rw [upd_ne _ _ hya] at hy; exact absurd hx (hne y hya hy)
    · subst hya; rw [upd_same] at hy; rw [upd_ne _ _ hxa] at hx; exact absurd hy (hne x hxa hx)
    · rw [upd_ne _ _ hxa] at hx; rw [upd_ne _ _ hya] at hy; exact h.inj x y b hx hy
  · by_cases hp : p.buf = some b
    · exact ⟨a, by rw [upd_same]; exact hp⟩
    by_cases ha : (ph a).buf = some b
    · exact absurd (c.gone b hb ha) hp
    rw [c.heap b ha hp] at hb
    obtain ⟨x, hx⟩ := h.used b hb
    refine ⟨x, ?_⟩
    rw [upd_ne _ _ (fun e => by subst e; exact ha hx)]
    exact hx
  · by_cases hxa : x = a
    · subst hxa
      rw [upd_same] at hx
      have := c.next
      rcases c.new b hx with e | e
      · have := h.fresh x b e; omega
      · omega
    · rw [upd_ne _ _ hxa] at hx
      have := h.fresh x b hx
      have := c.next
      omega
  · by_cases hu : u = t
    · subst hu; exact c.at_
    rw [c.pcs u hu]
    have ha := h.at_ u
    have key : ∀ z q, ph z = q → q.thread = some u → upd ph a p z = q := by
      intro z q hz hq
      by_cases hza : z = a
      · subst hza
        rcases c.thread with e | e <;> rw [hz, hq] at e
        · exact nomatch e
        · exact absurd (Option.some.inj e) hu
      · rw [upd_ne _ _ hza]; exact hz
    cases hp : w.pc u <;> rw [hp] at ha <;> simp only [AtPc] at ha ⊢
    · exact key _ _ ha rfl
    · exact key _ _ ha rfl
    · exact key _ _ ha rfl
    · obtain ⟨h1, b, h2⟩ := ha; exact ⟨h1, b, key _ _ h2 rfl⟩
    · obtain ⟨h1, b, h2, h3⟩ := ha; exact ⟨h1, b, h2, key _ _ h3 rfl⟩
    · obtain ⟨h1, b, h2⟩ := ha; exact ⟨h1, b, key _ _ h2 rfl⟩
    · exact key _ _ ha rfl
  · by_cases hu : u = t
    · subst hu; exact uses
    rw [c.rests u hu, hop u hu]
    exact h.uses u
  · by_cases hu : u = t
    · subst hu; exact lft
    rw [c.rests u hu, hop u hu]
    exact h.lft u
  · by_cases hu : u = t
    · subst hu; exact text
    rw [c.rests u hu, c.pcs u hu, c.outs u hu, ← h.text u]
    refine congrArg _ (alone_congr _ _ _ _ (uses_pend h u) fun x hx => ?_)
    refine c.abs_same h (fun e => ?_) hx
    subst e
    have := opened_thread hx
    rcases c.thread with e | e <;> rw [e] at this
    · exact nomatch this
    · exact hu (Option.some.inj this).symm

end Verif.Ind
