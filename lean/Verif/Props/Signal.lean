import Verif.Spec.Signal
import Verif.Lemmas.Util
import Mathlib.Data.List.Forall2
/-
C30: signals.
-/
namespace Verif.Sig

/-! ### The map of slots -/

def Sorted (m : List (Nat × Nat)) : Prop := m.Pairwise (fun a b => a.1 < b.1)

theorem lookup_none {m : List (Nat × Nat)} {k : Nat} : lookup m k = none ↔ ∀ e ∈ m, e.1 ≠ k := by
  unfold lookup
  simp [List.find?_eq_none]

theorem lookup_some_mem {m : List (Nat × Nat)} {k f : Nat} (h : lookup m k = some f) : (k, f) ∈ m := by
  unfold lookup at h
  cases he : m.find? (fun e => e.1 == k) with
  | none => simp [he] at h
  | some e =>
    have h1 := List.mem_of_find?_eq_some he
    have h2 := List.find?_some he
    simp only [he, Option.map_some, Option.some.injEq] at h
    have : e = (k, f) := by
      cases e; simp only [beq_iff_eq] at h2; simp only at h; rw [h2, h]
    exact this ▸ h1

theorem emplace_perm : ∀ (m : List (Nat × Nat)) (k f : Nat), (∀ e ∈ m, e.1 ≠ k) → (emplace m k f).Perm (m ++ [(k, f)]) := by
  intro m
  induction m with
  | nil => intro k f _; exact List.Perm.refl _
  | cons e m ih =>
    intro k f h
    unfold emplace
    split
    · exact (List.perm_append_singleton (k, f) (e :: m)).symm
    · split
      · rename_i hk; exact absurd hk.symm (h e List.mem_cons_self)
      · exact (ih k f (fun x hx => h x (List.mem_cons_of_mem _ hx))).cons e

theorem mem_emplace {m : List (Nat × Nat)} {k f : Nat} {e : Nat × Nat} (h : e ∈ emplace m k f) : e ∈ m ∨ e = (k, f) := by
  induction m with
  | nil => simp [emplace] at h; exact Or.inr h
  | cons x m ih =>
    unfold emplace at h
    split at h
    · rcases List.mem_cons.mp h with h | h
      · exact Or.inr h
      · exact Or.inl h
    · split at h
      · exact Or.inl h
      · rcases List.mem_cons.mp h with h | h
        · exact Or.inl (h ▸ List.mem_cons_self)
        · rcases ih h with h | h
          · exact Or.inl (List.mem_cons_of_mem _ h)
          · exact Or.inr h

theorem emplace_sorted : ∀ {m : List (Nat × Nat)} (k f : Nat), Sorted m → Sorted (emplace m k f) := by
  intro m
  induction m with
  | nil => intro k f _; simp [emplace, Sorted]
  | cons e m ih =>
    intro k f h
    obtain ⟨h1, h2⟩ := List.pairwise_cons.mp h
    unfold emplace
    split
    · rename_i hk
      refine List.pairwise_cons.mpr ⟨fun x hx => ?_, h⟩
      rcases List.mem_cons.mp hx with rfl | hx
      · exact hk
      · exact Nat.lt_trans hk (h1 x hx)
    · split
      · exact h
      · refine List.pairwise_cons.mpr ⟨fun x hx => ?_, ih k f h2⟩
        rcases mem_emplace hx with hx | rfl
        · exact h1 x hx
        · simp only; omega

theorem erase_sorted {m : List (Nat × Nat)} (k : Nat) (h : Sorted m) : Sorted (erase m k) :=
  h.sublist List.filter_sublist

/-! ### Emissions -/

theorem lookup_mid {pre post : List (Nat × Nat)} {e : Nat × Nat} (h : Sorted (pre ++ e :: post)) :
    lookup (pre ++ e :: post) e.1 = some e.2 := by
  unfold lookup
  have hp : pre.find? (fun x => x.1 == e.1) = none := by
    rw [List.find?_eq_none]
    intro x hx hc
    have := (List.pairwise_append.mp h).2.2 x hx e List.mem_cons_self
    have : x.1 = e.1 := by simpa using hc
    omega
  simp [List.find?_append, hp]

theorem find_next {pre post : List (Nat × Nat)} {e : Nat × Nat} (h : Sorted (pre ++ e :: post)) :
    (pre ++ e :: post).find? (fun x => e.1 < x.1) = post.head? := by
  have hs := List.pairwise_append.mp h
  have hp : pre.find? (fun x => decide (e.1 < x.1)) = none := by
    rw [List.find?_eq_none]
    intro x hx hc
    have := hs.2.2 x hx e List.mem_cons_self
    have : e.1 < x.1 := by simpa using hc
    omega
  rw [List.find?_append, hp]
  simp only [Option.none_or, List.find?_cons, Nat.lt_irrefl, decide_false]
  cases post with
  | nil => rfl
  | cons x post =>
    have : e.1 < x.1 := (List.pairwise_cons.mp hs.2.1).1 x List.mem_cons_self
    simp [this]

/-- What the functions called during an emission may do: nothing, or disconnect their own connection. -/
def Selfish (beh : Nat → State → List Op) (s : State) : Prop :=
  ∀ k f, (k, f) ∈ s.slots → (∀ s', beh f s' = []) ∨ ∃ a, (∀ s', beh f s' = [.disconnect a]) ∧ lookup s.conns a = some k ∧ k ≠ 0

theorem erase_mid {pre post : List (Nat × Nat)} {e : Nat × Nat} (h : Sorted (pre ++ e :: post)) :
    erase (pre ++ e :: post) e.1 = pre ++ post := by
  have hs := List.pairwise_append.mp h
  unfold erase
  rw [List.filter_append, List.filter_cons_of_neg (by simp)]
  rw [List.filter_eq_self.mpr, List.filter_eq_self.mpr]
  · intro x hx
    have := (List.pairwise_cons.mp hs.2.1).1 x hx
    simp; omega
  · intro x hx
    have := hs.2.2 x hx e List.mem_cons_self
    simp; omega

theorem lookup_erase_ne {m : List (Nat × Nat)} {a b : Nat} (h : a ≠ b) : lookup (erase m b) a = lookup m a := by
  unfold lookup erase
  congr 1
  induction m with
  | nil => rfl
  | cons e m ih =>
    by_cases h1 : e.1 = b
    · have h2 : (e.1 == a) = false := by simp [h1]; exact fun hh => h hh.symm
      simp only [List.find?_cons, h2]
      rw [List.filter_cons_of_neg (by simp [h1])]
      exact ih
    · rw [List.filter_cons_of_pos (by simp [h1])]
      simp only [List.find?_cons]
      split
      · rfl
      · exact ih

theorem emitLoop_selfish (beh : Nat → State → List Op) : ∀ (post : List (Nat × Nat)) (n : Nat) (pre : List (Nat × Nat))
    (e : Nat × Nat) (s : State) (calls : List Nat), post.length < n → s.slots = pre ++ e :: post → Sorted s.slots →
    (∀ k f, (k, f) ∈ e :: post → (∀ s', beh f s' = []) ∨ ∃ a, (∀ s', beh f s' = [.disconnect a]) ∧ lookup s.conns a = some k ∧ k ≠ 0) →
    ∃ s', emitLoop beh n s e.1 s.slots.length pre.length calls = .done (calls ++ (e :: post).map (·.2)) s'
      ∧ s'.slots = pre ++ (e :: post).filter (fun x => (beh x.2 {}).isEmpty) := by
  intro post
  induction post with
  | nil =>
    intro n pre e s calls hn hs hsort hb
    obtain ⟨n, rfl⟩ : ∃ m, n = m + 1 := ⟨n - 1, by simp at hn; omega⟩
    unfold emitLoop
    have hl : lookup s.slots e.1 = some e.2 := by rw [hs] at hsort ⊢; exact lookup_mid hsort
    have hlen : s.slots.length = pre.length + 1 := by rw [hs]; simp
    simp only [hl]
    rcases hb e.1 e.2 List.mem_cons_self with h0 | ⟨a, h0, hc, hk⟩
    · simp only [h0, List.foldl_nil, ne_eq, not_true, if_false, hl]
      have hf : s.slots.find? (fun x => decide (e.1 < x.1)) = none := by
        rw [hs] at hsort ⊢; rw [find_next hsort]; rfl
      simp only [hf]
      exact ⟨s, rfl, by simp [hs, h0]⟩
    · have hd : disconnect s a = { slots := pre, conns := erase s.conns a } := by
        unfold disconnect
        simp only [hc, hk, if_false]
        rw [hs] at hsort ⊢
        rw [erase_mid hsort]; simp
      simp only [h0, List.foldl_cons, List.foldl_nil, apply, hd, hlen]
      have : pre[pre.length]? = none := by simp
      simp only [ne_eq, Nat.succ_ne_self, not_false_eq_true, if_true, Nat.lt_irrefl, if_false, this]
      exact ⟨_, rfl, by simp [h0]⟩
  | cons x post ih =>
    intro n pre e s calls hn hs hsort hb
    simp only [List.length_cons] at hn
    obtain ⟨n, rfl⟩ : ∃ m, n = m + 1 := ⟨n - 1, by omega⟩
    unfold emitLoop
    have hl : lookup s.slots e.1 = some e.2 := by rw [hs] at hsort ⊢; exact lookup_mid hsort
    have hlen : s.slots.length = pre.length + (post.length + 2) := by rw [hs]; simp
    simp only [hl]
    rcases hb e.1 e.2 List.mem_cons_self with h0 | ⟨a, h0, hc, hk⟩
    · simp only [h0, List.foldl_nil, ne_eq, not_true, if_false, hl]
      have hf : s.slots.find? (fun x => decide (e.1 < x.1)) = some x := by
        rw [hs] at hsort ⊢; rw [find_next hsort]; rfl
      simp only [hf]
      obtain ⟨s', h1, h2⟩ := ih n (pre ++ [e]) x s (calls ++ [e.2]) (by omega) (by simp [hs]) hsort
        (fun k f hm => hb k f (List.mem_cons_of_mem _ hm))
      refine ⟨s', ?_, ?_⟩
      · simpa using h1
      · rw [h2, List.filter_cons_of_pos (by simp [h0]) (a := e)]
        simp
    · have hd : disconnect s a = { slots := pre ++ x :: post, conns := erase s.conns a } := by
        unfold disconnect
        simp only [hc, hk, if_false]
        rw [hs] at hsort ⊢
        rw [erase_mid hsort]
      simp only [h0, List.foldl_cons, List.foldl_nil, apply, hd, hlen]
      have hne : pre.length + (post.length + 2) ≠ (pre ++ x :: post).length := by simp
      have hget : (pre ++ x :: post)[pre.length]? = some x := by simp
      have hnlt : ¬ (pre ++ x :: post).length < pre.length := by simp
      simp only [ne_eq, hne, not_false_eq_true, if_true, hnlt, if_false, hget]
      have hsort' : Sorted (pre ++ x :: post) := by
        rw [hs] at hsort
        exact hsort.sublist (List.Sublist.append (List.Sublist.refl _) (List.sublist_cons_self _ _))
      obtain ⟨s', h1, h2⟩ := ih n pre x { slots := pre ++ x :: post, conns := erase s.conns a } (calls ++ [e.2]) (by omega) rfl hsort'
        (by
          intro k f hm
          rcases hb k f (List.mem_cons_of_mem _ hm) with h | ⟨b, h, h3, h4⟩
          · exact Or.inl h
          · right
            refine ⟨b, h, ?_, h4⟩
            have hab : b ≠ a := by
              intro e'
              subst e'
              rw [hc] at h3
              simp only [Option.some.injEq] at h3
              rw [hs] at hsort
              have := (List.pairwise_cons.mp (List.pairwise_append.mp hsort).2.1).1 (k, f) hm
              simp only at this
              omega
            simp only
            rw [lookup_erase_ne hab]; exact h3)
      refine ⟨s', ?_, ?_⟩
      · simpa using h1
      · rw [h2, List.filter_cons_of_neg (by simp [h0]) (a := e)]

/-- C30: during an emission, functions may disconnect their own connection: still each function connected when the
emission starts is called exactly once, in order of connection numbers, and those that disconnected themselves are
gone, the others still there. -/
theorem emission_calls_each_once (beh : Nat → State → List Op) (s : State) (hs : Sorted s.slots) (hb : Selfish beh s) (n : Nat)
    (hn : s.slots.length < n) :
    ∃ s', emit beh n s = .done (s.slots.map (·.2)) s' ∧ s'.slots = s.slots.filter (fun x => (beh x.2 {}).isEmpty) := by
  unfold emit
  cases he : s.slots with
  | nil => exact ⟨s, rfl, by simp [he]⟩
  | cons e m =>
    rw [he] at hn
    simp only [List.length_cons] at hn
    obtain ⟨s', h1, h2⟩ := emitLoop_selfish beh m n [] e s [] (by omega) (by simp [he]) hs (by
      intro k f hm; exact hb k f (he ▸ hm))
    rw [he] at h1
    exact ⟨s', by simpa using h1, by simpa using h2⟩

/-! ### Refinement -/

/-- The slots, the connection variables and the user's view, held together by triples (variable, number, function). -/
structure Rel (s : State) (l : Live) (t : List (Nat × Nat × Nat)) : Prop where
  sorted : Sorted s.slots
  slots : s.slots.Perm (t.map fun x => (x.2.1, x.2.2))
  conns : s.conns.Perm (t.map fun x => (x.1, x.2.1))
  live : l.Perm (t.map fun x => (x.1, x.2.2))
  vars : (t.map (·.1)).Nodup
  nums : (t.map (·.2.1)).Nodup
  pos : ∀ x ∈ t, x.2.1 ≠ 0

theorem nodup_key_eq {A : Type} {f : A → Nat} : ∀ {l : List A}, (l.map f).Nodup → ∀ {a b : A}, a ∈ l → b ∈ l → f a = f b → a = b := by
  intro l
  induction l with
  | nil => intro _ a b h; simp at h
  | cons c l ih =>
    intro hn a b ha hb hf
    simp only [List.map_cons, List.nodup_cons] at hn
    rcases List.mem_cons.mp ha with rfl | ha' <;> rcases List.mem_cons.mp hb with rfl | hb'
    · rfl
    · exact absurd (hf ▸ List.mem_map_of_mem hb') hn.1
    · exact absurd (hf ▸ List.mem_map_of_mem ha') hn.1
    · exact ih hn.2 ha' hb' hf

theorem rel_lookup {s l t} (h : Rel s l t) {a k : Nat} (hl : lookup s.conns a = some k) : ∃ f, (a, k, f) ∈ t := by
  have := h.conns.mem_iff.mp (lookup_some_mem hl)
  obtain ⟨x, hx, he⟩ := List.mem_map.mp this
  obtain ⟨x1, x2, x3⟩ := x
  simp only [Prod.mk.injEq] at he
  obtain ⟨rfl, rfl⟩ := he
  exact ⟨x3, hx⟩

theorem rel_lookup_none {s l t} (h : Rel s l t) {a : Nat} (hl : lookup s.conns a = none) : ∀ x ∈ t, x.1 ≠ a := by
  intro x hx
  exact lookup_none.mp hl (x.1, x.2.1) (h.conns.mem_iff.mpr (List.mem_map.mpr ⟨x, hx, rfl⟩))

/-- Forgetting the variable `a`, wherever it is. -/
theorem rel_drop {s l t} (h : Rel s l t) {a k f : Nat} (hm : (a, k, f) ∈ t) :
    Rel { slots := erase s.slots k, conns := erase s.conns a } (l.filter (fun e => e.1 != a)) (t.filter (fun x => x.1 != a)) := by
  have hfilter : t.filter (fun x => x.2.1 != k) = t.filter (fun x => x.1 != a) := by
    apply List.filter_congr
    intro x hx
    by_cases hxa : x.1 = a
    · have : x = (a, k, f) := nodup_key_eq (f := fun y : Nat × Nat × Nat => y.1) h.vars hx hm hxa
      simp [this]
    · have : x.2.1 ≠ k := fun e => by
        have : x = (a, k, f) := nodup_key_eq (f := fun y : Nat × Nat × Nat => y.2.1) h.nums hx hm e
        exact hxa (by rw [this])
      have h1 : (x.2.1 != k) = true := by simpa using this
      have h2 : (x.1 != a) = true := by simpa using hxa
      rw [h1, h2]
  refine ⟨erase_sorted k h.sorted, ?_, ?_, ?_, ?_, ?_, ?_⟩
  · have := h.slots.filter (fun e => e.1 != k)
    rw [List.filter_map] at this
    simp only [erase]
    rw [← hfilter]
    exact this
  · have := h.conns.filter (fun e => e.1 != a)
    rw [List.filter_map] at this
    exact this
  · have := h.live.filter (fun e => e.1 != a)
    rw [List.filter_map] at this
    exact this
  · exact h.vars.sublist (List.filter_sublist.map _)
  · exact h.nums.sublist (List.filter_sublist.map _)
  · exact fun x hx => h.pos x (List.mem_filter.mp hx).1

theorem filter_none {A : Type} {p : A → Bool} {l : List A} (h : ∀ x ∈ l, p x = true) : l.filter p = l := List.filter_eq_self.mpr h

theorem rel_absent {s l t} (h : Rel s l t) {a : Nat} (hl : lookup s.conns a = none) :
    l.filter (fun e => e.1 != a) = l ∧ t.filter (fun x => x.1 != a) = t := by
  have ht := rel_lookup_none h hl
  refine ⟨filter_none fun e he => ?_, filter_none fun x hx => by simp [ht x hx]⟩
  obtain ⟨x, hx, rfl⟩ := List.mem_map.mp (h.live.mem_iff.mp he)
  simp [ht x hx]

theorem rel_disconnect {s l t} (h : Rel s l t) (a : Nat) :
    Rel (disconnect s a) (l.filter (fun e => e.1 != a)) (t.filter (fun x => x.1 != a)) := by
  unfold disconnect
  cases hl : lookup s.conns a with
  | none =>
    obtain ⟨h1, h2⟩ := rel_absent h hl
    rw [h1, h2]; exact h
  | some k =>
    obtain ⟨f, hm⟩ := rel_lookup h hl
    have hk : k ≠ 0 := h.pos _ hm
    simp only [hk, if_false]
    exact rel_drop h hm

theorem erase_emplace_perm {m : List (Nat × Nat)} {k old f : Nat} (hk : ∀ e ∈ m, e.1 ≠ k) (hne : old ≠ k) :
    (erase (emplace m k f) old).Perm (erase m old ++ [(k, f)]) := by
  have := (emplace_perm m k f hk).filter (fun e => e.1 != old)
  rw [List.filter_append] at this
  have h2 : ([(k, f)] : List (Nat × Nat)).filter (fun e => e.1 != old) = [(k, f)] := by
    rw [List.filter_eq_self]; simp; exact fun e => hne e.symm
  rw [h2] at this
  exact this

/-- Adding a variable with a fresh number. -/
theorem rel_add {s : State} {l : Live} {t : List (Nat × Nat × Nat)} {a k f : Nat} {slots : List (Nat × Nat)} (h : Rel s l t)
    (hs : Sorted slots) (hp : slots.Perm (s.slots ++ [(k, f)])) (ha : ∀ x ∈ t, x.1 ≠ a) (hk : ∀ x ∈ t, x.2.1 ≠ k) (h0 : k ≠ 0) :
    Rel { slots := slots, conns := s.conns ++ [(a, k)] } (l ++ [(a, f)]) (t ++ [(a, k, f)]) := by
  refine ⟨hs, ?_, ?_, ?_, ?_, ?_, ?_⟩
  · simp only [List.map_append, List.map_cons, List.map_nil]
    exact hp.trans (h.slots.append_right _)
  · simp only [List.map_append, List.map_cons, List.map_nil]
    exact h.conns.append_right _
  · simp only [List.map_append, List.map_cons, List.map_nil]
    exact h.live.append_right _
  · simp only [List.map_append, List.map_cons, List.map_nil]
    rw [List.nodup_append]
    refine ⟨h.vars, by simp, ?_⟩
    intro x hx y hy
    simp only [List.mem_singleton] at hy
    obtain ⟨z, hz, rfl⟩ := List.mem_map.mp hx
    subst hy
    exact ha z hz
  · simp only [List.map_append, List.map_cons, List.map_nil]
    rw [List.nodup_append]
    refine ⟨h.nums, by simp, ?_⟩
    intro x hx y hy
    simp only [List.mem_singleton] at hy
    obtain ⟨z, hz, rfl⟩ := List.mem_map.mp hx
    subst hy
    exact hk z hz
  · intro x hx
    rcases List.mem_append.mp hx with hx | hx
    · exact h.pos x hx
    · simp at hx; subst hx; exact h0

theorem rel_slot_num {s l t} (h : Rel s l t) {k : Nat} (hk : lookup s.slots k = none) : ∀ x ∈ t, x.2.1 ≠ k := by
  intro x hx
  exact lookup_none.mp hk (x.2.1, x.2.2) (h.slots.mem_iff.mpr (List.mem_map.mpr ⟨x, hx, rfl⟩))

theorem rel_connect {s l t} (h : Rel s l t) (a f : Nat) (hk : lookup s.slots (nextIndex s) = none) (h0 : nextIndex s ≠ 0) :
    ∃ t', Rel (apply s (.connect a f)) (l.apply (.connect a f)) t' := by
  simp only [apply, Live.apply]
  have hkt := rel_slot_num h hk
  have hks := lookup_none.mp hk
  cases hl : lookup s.conns a with
  | none =>
    obtain ⟨h1, _⟩ := rel_absent h hl
    rw [h1]
    exact ⟨_, rel_add h (emplace_sorted _ _ h.sorted) (emplace_perm _ _ _ hks) (rel_lookup_none h hl) hkt h0⟩
  | some old =>
    obtain ⟨g, hm⟩ := rel_lookup h hl
    have hold : old ≠ 0 := h.pos _ hm
    have hne : old ≠ nextIndex s := hkt _ hm
    simp only [hold, if_false]
    exact ⟨_, rel_add (rel_drop h hm) (erase_sorted _ (emplace_sorted _ _ h.sorted)) (erase_emplace_perm hks hne)
      (fun x hx => by simpa using (List.mem_filter.mp hx).2) (fun x hx => hkt x (List.mem_filter.mp hx).1) h0⟩

theorem disconnect_lookup_ne {s : State} {a b : Nat} (h : b ≠ a) : lookup (disconnect s a).conns b = lookup s.conns b := by
  unfold disconnect
  split
  · rfl
  · split
    · rfl
    · exact lookup_erase_ne h

theorem rename_perm {A : Type} (t : List (Nat × A)) (a b : Nat) (z : A) (hm : (b, z) ∈ t) (hn : (t.map (·.1)).Nodup) :
    (t.map fun x => if x.1 = b then (a, x.2) else x).Perm (t.filter (fun x => x.1 != b) ++ [(a, z)]) := by
  induction t with
  | nil => simp at hm
  | cons x t ih =>
    simp only [List.map_cons, List.nodup_cons] at hn
    by_cases hx : x.1 = b
    · have hxz : x = (b, z) := by
        rcases List.mem_cons.mp hm with h | h
        · exact h.symm
        · exact absurd (List.mem_map.mpr ⟨_, h, hx.symm⟩) hn.1
      subst hxz
      have hno : ∀ y ∈ t, y.1 ≠ b := fun y hy e => hn.1 (List.mem_map.mpr ⟨y, hy, e⟩)
      have h1 : (t.map fun x => if x.1 = b then (a, x.2) else x) = t := by
        conv_rhs => rw [← List.map_id t]
        apply List.map_congr_left
        intro y hy; simp [hno y hy]
      have h2 : t.filter (fun x => x.1 != b) = t := filter_none fun y hy => by simp [hno y hy]
      simp only [List.map_cons, if_true, h1]
      rw [List.filter_cons_of_neg (by simp), h2]
      exact (List.perm_append_singleton (a, z) t).symm
    · have hm' : (b, z) ∈ t := by
        rcases List.mem_cons.mp hm with h | h
        · exact absurd (by rw [← h]) hx
        · exact h
      simp only [List.map_cons, hx, if_false]
      rw [List.filter_cons_of_pos (by simp [hx])]
      exact (ih hm' hn.2).cons x

theorem rel_move {s l t} (h : Rel s l t) (a b : Nat) : ∃ t', Rel (apply s (.move a b)) (l.apply (.move a b)) t' := by
  simp only [apply, Live.apply]
  by_cases hab : a = b
  · simp only [hab, if_true]; exact ⟨t, h⟩
  · simp only [hab, if_false]
    have hd := rel_disconnect h a
    have hlb : lookup (disconnect s a).conns b = lookup s.conns b := disconnect_lookup_ne (fun e => hab e.symm)
    generalize disconnect s a = s1 at hd hlb
    generalize hl1 : l.filter (fun e => e.1 != a) = l1 at hd
    generalize ht1 : t.filter (fun x => x.1 != a) = t1 at hd
    have hna : ∀ x ∈ t1, x.1 ≠ a := fun x hx => by
      subst ht1; simpa using (List.mem_filter.mp hx).2
    cases hb : lookup s.conns b with
    | none =>
      rw [hb] at hlb
      have hnb := rel_lookup_none hd hlb
      have : (l1.map fun e => if e.1 = b then (a, e.2) else e) = l1 := by
        conv_rhs => rw [← List.map_id l1]
        apply List.map_congr_left
        intro e he
        obtain ⟨x, hx, rfl⟩ := List.mem_map.mp (hd.live.mem_iff.mp he)
        simp [hnb x hx]
      simp only [this]
      exact ⟨t1, hd⟩
    | some k =>
      rw [hb] at hlb
      obtain ⟨f, hm⟩ := rel_lookup hd hlb
      simp only
      refine ⟨t1.filter (fun x => x.1 != b) ++ [(a, k, f)], ?_⟩
      have hp : t1.Perm (t1.filter (fun x => x.1 != b) ++ [(b, k, f)]) := by
        have := rename_perm t1 b b (k, f) hm hd.vars
        have e : (t1.map fun x => if x.1 = b then (b, x.2) else x) = t1 := by
          conv_rhs => rw [← List.map_id t1]
          apply List.map_congr_left
          intro y _
          by_cases hy : y.1 = b
          · simp [← hy]
          · simp [hy]
        rwa [e] at this
      refine ⟨hd.sorted, ?_, ?_, ?_, ?_, ?_, ?_⟩
      · exact hd.slots.trans (by simpa using hp.map (fun x => (x.2.1, x.2.2)))
      · have := hd.conns.filter (fun e => e.1 != b)
        rw [List.filter_map] at this
        simp only [List.map_append, List.map_cons, List.map_nil]
        exact this.append_right _
      · have h1 : (l1.map fun e => if e.1 = b then (a, e.2) else e).Perm
            ((t1.map fun x => (x.1, x.2.2)).map fun e => if e.1 = b then (a, e.2) else e) := hd.live.map _
        have h2 := rename_perm (t1.map fun x => (x.1, x.2.2)) a b f (List.mem_map.mpr ⟨_, hm, rfl⟩)
          (by simpa [List.map_map, Function.comp_def] using hd.vars)
        rw [List.filter_map] at h2
        simp only [List.map_append, List.map_cons, List.map_nil]
        exact h1.trans h2
      · simp only [List.map_append, List.map_cons, List.map_nil]
        rw [List.nodup_append]
        refine ⟨hd.vars.sublist (List.filter_sublist.map _), by simp, ?_⟩
        intro x hx y hy
        simp only [List.mem_singleton] at hy
        obtain ⟨z, hz, rfl⟩ := List.mem_map.mp hx
        subst hy
        exact hna z (List.mem_filter.mp hz).1
      · have := (hp.map (fun x => x.2.1)).nodup_iff.mp hd.nums
        simpa using this
      · intro x hx
        rcases List.mem_append.mp hx with hx | hx
        · exact hd.pos x (List.mem_filter.mp hx).1
        · simp at hx; subst hx; exact hd.pos (b, k, f) hm

theorem run_refines : ∀ (p : List Step) (s : State) (l : Live) (t : List (Nat × Nat × Nat)), Rel s l t → FreshNumbers s p →
    List.Forall₂ CallsEach (run s p) (expected l p) := by
  intro p
  induction p with
  | nil => intro s l t _ _; exact .nil
  | cons st p ih =>
    intro s l t h hf
    cases st with
    | op o =>
      simp only [run, expected]
      obtain ⟨t', h'⟩ : ∃ t', Rel (apply s o) (l.apply o) t' := by
        cases o with
        | connect a f => exact rel_connect h a f hf.1.1 hf.1.2
        | disconnect a => exact ⟨_, rel_disconnect h a⟩
        | move a b => exact rel_move h a b
      exact ih _ _ _ h' hf.2
    | emit =>
      simp only [run, expected]
      refine .cons ?_ (ih _ _ _ h hf)
      obtain ⟨s', h1, _⟩ := emission_calls_each_once (fun _ _ => []) s h.sorted (fun k f _ => Or.inl (fun _ => rfl)) (s.slots.length + 1) (by omega)
      refine ⟨_, s', h1, ?_⟩
      refine (h.slots.map _).trans ?_
      refine List.Perm.trans ?_ (h.live.map _).symm
      simp [List.map_map, Function.comp_def]

/-- C30 (partial): in every program of connections, moves, disconnections and emissions, each emission calls exactly the
functions of the live connections, each once, provided that the number given to a new connection is free.
Missing: programs where it is not, see `reconnect_lost`; functions that touch other connections during an emission,
see `disconnecting_later_calls_twice` and `connecting_never_ends`. -/
theorem emissions_call_connected_partial (p : List Step) (hf : FreshNumbers {} p) :
    List.Forall₂ CallsEach (run {} p) (expected [] p) :=
  run_refines p {} [] [] ⟨List.Pairwise.nil, .refl _, .refl _, .refl _, by simp, by simp, by simp⟩ hf

/-- C30 (partial, as above): after any program, a variable is valid iff it is connected. -/
theorem valid_iff_connected_partial (p : List Op) (hf : FreshNumbers {} (p.map .op)) (a : Nat) :
    isValid (p.foldl apply {}) a = true ↔ ∃ f, (a, f) ∈ p.foldl Live.apply [] := by
  have key : ∀ (p : List Op) (s : State) (l : Live) (t : List (Nat × Nat × Nat)), Rel s l t → FreshNumbers s (p.map .op) →
      ∃ t', Rel (p.foldl apply s) (p.foldl Live.apply l) t' := by
    intro p
    induction p with
    | nil => intro s l t h _; exact ⟨t, h⟩
    | cons o p ih =>
      intro s l t h hf
      obtain ⟨t', h'⟩ : ∃ t', Rel (apply s o) (l.apply o) t' := by
        cases o with
        | connect a f => exact rel_connect h a f hf.1.1 hf.1.2
        | disconnect a => exact ⟨_, rel_disconnect h a⟩
        | move a b => exact rel_move h a b
      exact ih _ _ _ h' hf.2
  obtain ⟨t, h⟩ := key p {} [] [] ⟨List.Pairwise.nil, .refl _, .refl _, .refl _, by simp, by simp, by simp⟩ hf
  unfold isValid
  cases hl : lookup (p.foldl apply {}).conns a with
  | none =>
    simp only [Bool.false_eq_true, false_iff, not_exists]
    intro f hm
    obtain ⟨x, hx, he⟩ := List.mem_map.mp (h.live.mem_iff.mp hm)
    exact rel_lookup_none h hl x hx (by simpa using congrArg Prod.fst he)
  | some k =>
    obtain ⟨f, hm⟩ := rel_lookup h hl
    have hk := h.pos _ hm
    simp only [bne_iff_ne, ne_eq]
    exact ⟨fun _ => ⟨f, h.live.mem_iff.mpr (List.mem_map.mpr ⟨_, hm, rfl⟩)⟩, fun _ => hk⟩

example : FreshNumbers {} ([Op.connect 0 10, .connect 1 11, .move 2 0, .disconnect 1].map .op) := by simp [FreshNumbers, apply, nextIndex, lookup, emplace, disconnect, erase]

/-! ### When numbers are fresh -/

/-- Emission or disconnection: a step that can't connect. -/
def NoConnect : Step → Prop
  | .op (.connect _ _) => False
  | _ => True

theorem fresh_noConnect : ∀ (p : List Step) (s : State), (∀ x ∈ p, NoConnect x) → FreshNumbers s p := by
  intro p
  induction p with
  | nil => intro s _; trivial
  | cons x p ih =>
    intro s h
    cases x with
    | emit => exact ih s (fun y hy => h y (List.mem_cons_of_mem _ hy))
    | op o =>
      refine ⟨?_, ih _ (fun y hy => h y (List.mem_cons_of_mem _ hy))⟩
      cases o with
      | connect a f => exact absurd (h _ List.mem_cons_self) (by simp [NoConnect])
      | disconnect a => trivial
      | move a b => trivial

theorem emplace_last : ∀ (m : List (Nat × Nat)) (k f : Nat), (∀ e ∈ m, e.1 < k) → emplace m k f = m ++ [(k, f)] := by
  intro m
  induction m with
  | nil => intro k f _; rfl
  | cons y m ihm =>
    intro k f h
    have hy := h y List.mem_cons_self
    unfold emplace
    rw [if_neg (by omega), if_neg (by omega), ihm k f (fun e he => h e (List.mem_cons_of_mem _ he))]
    rfl

/-- A step of the building phase: connecting a variable that isn't connected yet, or an emission. -/
def Building (used : List Nat) : List Step → Prop
  | [] => True
  | .op (.connect a _) :: p => a ∉ used ∧ Building (a :: used) p
  | .op _ :: _ => False
  | .emit :: p => Building used p

theorem fresh_append : ∀ (p q : List Step) (s : State) (used : List Nat), Building used p →
    s.slots.map (·.1) = List.range' 1 s.slots.length → (∀ e ∈ s.conns, e.1 ∈ used) → s.slots.length + p.length < 2 ^ 32 - 1 →
    (∀ s', FreshNumbers s' q) → FreshNumbers s (p ++ q) := by
  intro p
  induction p with
  | nil => intro q s used _ _ _ _ hq; exact hq s
  | cons x p ih =>
    intro q s used hb hk hc hl hq
    simp only [List.length_cons] at hl
    cases x with
    | emit => exact ih q s used hb hk hc (by omega) hq
    | op o =>
      cases o with
      | disconnect a => exact absurd hb (by simp [Building])
      | move a b => exact absurd hb (by simp [Building])
      | connect a f =>
        obtain ⟨hu, hb'⟩ := hb
        have hi : nextIndex s = s.slots.length + 1 := Nat.mod_eq_of_lt (by omega)
        have hfree : ∀ e ∈ s.slots, e.1 ≠ s.slots.length + 1 := by
          intro e he h
          have : e.1 ∈ s.slots.map (·.1) := List.mem_map_of_mem he
          rw [hk, List.mem_range'_1] at this
          omega
        have hlow : ∀ e ∈ s.slots, e.1 < s.slots.length + 1 := by
          intro e he
          have : e.1 ∈ s.slots.map (·.1) := List.mem_map_of_mem he
          rw [hk, List.mem_range'_1] at this
          omega
        have hl0 : lookup s.conns a = none := lookup_none.mpr (fun e he h => hu (h ▸ hc e he))
        refine ⟨⟨?_, by rw [hi]; omega⟩, ?_⟩
        · rw [hi]; exact lookup_none.mpr hfree
        · have happ : apply s (.connect a f)
              = { slots := s.slots ++ [(s.slots.length + 1, f)], conns := s.conns ++ [(a, s.slots.length + 1)] } := by
            simp only [apply, hl0, hi, emplace_last _ _ _ hlow]
          rw [happ]
          refine ih q _ (a :: used) hb' ?_ ?_ ?_ hq
          · simp only [List.map_append, List.length_append, List.map_cons, List.map_nil, List.length_cons, List.length_nil]
            rw [hk, List.range'_concat]
            simp; omega
          · intro e he
            rcases List.mem_append.mp he with he | he
            · exact List.mem_cons_of_mem _ (hc e he)
            · simp at he; subst he; exact List.mem_cons_self
          · simp; omega

/-- C30: a program that makes all its connections, on fresh variables, before its first disconnection or move, gets at
each emission exactly the calls of the live connections. -/
theorem connect_first_correct (p q : List Step) (hb : Building [] p) (hq : ∀ x ∈ q, NoConnect x) (hl : p.length < 2 ^ 32 - 1) :
    List.Forall₂ CallsEach (run {} (p ++ q)) (expected [] (p ++ q)) :=
  emissions_call_connected_partial _ (fresh_append p q {} [] hb (by simp) (by simp) (by simpa using hl)
    (fun s' => fresh_noConnect q s' hq))

/-- Such a program: three connections, an emission, the second is disconnected, the third moved. -/
example : Building [] [.op (.connect 0 10), .op (.connect 1 11), .emit, .op (.connect 2 12)]
    ∧ (∀ x ∈ [Step.op (.disconnect 1), .op (.move 5 2), .emit], NoConnect x)
    ∧ run {} ([.op (.connect 0 10), .op (.connect 1 11), .emit, .op (.connect 2 12)] ++ [.op (.disconnect 1), .op (.move 5 2), .emit])
      = [.done [10, 11] { slots := [(1, 10), (2, 11)], conns := [(0, 1), (1, 2)] },
         .done [10, 12] { slots := [(1, 10), (3, 12)], conns := [(0, 1), (5, 3)] }] := by
  refine ⟨by simp [Building], by simp [NoConnect], by decide⟩

/-! ### What goes wrong -/

/-- C30 is false in general: after the first of two connections is disconnected, a new connection gets the number of the
second one. Its function is never called; and disconnecting it disconnects the other. -/
theorem reconnect_lost (f g h : Nat) :
    let s := apply (apply (apply (apply {} (.connect 0 f)) (.connect 1 g)) (.disconnect 0)) (.connect 2 h)
    s.slots = [(2, g)] ∧ isValid s 2 = true ∧ (apply s (.disconnect 2)).slots = [] ∧ isValid (apply s (.disconnect 2)) 1 = true := by
  simp [apply, nextIndex, emplace, lookup, disconnect, erase, isValid, List.filter_cons]

/-- The same for a variable that is connected again: its own old slot number may be taken, and both functions are gone. -/
theorem reassign_lost (f g h : Nat) :
    (apply (apply (apply (apply {} (.connect 0 f)) (.connect 1 g)) (.disconnect 0)) (.connect 1 h)).slots = [] := by
  simp [apply, nextIndex, emplace, lookup, disconnect, erase, List.filter_cons]

/-- A function that disconnects a later one during the emission is called twice. -/
theorem disconnecting_later_calls_twice :
    emit (fun f _ => if f = 10 then [.disconnect 1] else []) 9 (apply (apply {} (.connect 0 10)) (.connect 1 11))
      = .done [10, 10] { slots := [(1, 10)], conns := [(0, 1)] } := by
  decide

/-- A function that disconnects itself and an earlier one, at the end of the slots, makes the emission run past the end. -/
theorem disconnecting_two_undefined :
    emit (fun f _ => if f = 11 then [.disconnect 1, .disconnect 0] else []) 9 (apply (apply {} (.connect 0 10)) (.connect 1 11))
      = .undefined := by
  decide

/-- A function that makes a new connection when called is called again and again: the emission doesn't end within the
first `2 ^ 31` calls. -/
theorem connecting_never_ends (n : Nat) (hn : n < 2 ^ 31) :
    emit (fun f s => if f = 10 then [.connect (s.slots.length + 1) 11] else []) n (apply {} (.connect 1 10)) = .running := by
  have key : ∀ (n : Nat) (s : State) (rest : List (Nat × Nat)) (calls : List Nat), s.slots = (1, 10) :: rest →
      s.slots.map (·.1) = List.range' 1 s.slots.length → s.conns.map (·.1) = List.range' 1 s.slots.length →
      s.slots.length + n < 2 ^ 32 - 1 →
      emitLoop (fun f s => if f = 10 then [.connect (s.slots.length + 1) 11] else []) n s 1 s.slots.length 0 calls = .running := by
    intro n
    induction n with
    | zero => intro s rest calls _ _ _ _; rfl
    | succ n ih =>
      intro s rest calls hs hk hc hl
      have hi : nextIndex s = s.slots.length + 1 := Nat.mod_eq_of_lt (by omega)
      have hlow : ∀ e ∈ s.slots, e.1 < s.slots.length + 1 := by
        intro e he
        have : e.1 ∈ s.slots.map (·.1) := List.mem_map_of_mem he
        rw [hk, List.mem_range'_1] at this
        omega
      have hl0 : lookup s.conns (s.slots.length + 1) = none := by
        rw [lookup_none]
        intro e he h
        have : e.1 ∈ s.conns.map (·.1) := List.mem_map_of_mem he
        rw [hc, List.mem_range'_1] at this
        omega
      have hf : lookup s.slots 1 = some 10 := by rw [hs]; rfl
      have happ : apply s (.connect (s.slots.length + 1) 11)
          = { slots := s.slots ++ [(s.slots.length + 1, 11)], conns := s.conns ++ [(s.slots.length + 1, s.slots.length + 1)] } := by
        simp only [apply, hl0, hi, emplace_last _ _ _ hlow]
      unfold emitLoop
      simp only [hf, if_true, List.foldl_cons, List.foldl_nil, happ]
      have hne : s.slots.length ≠ (s.slots ++ [(s.slots.length + 1, 11)]).length := by simp
      have hget : (s.slots ++ [(s.slots.length + 1, 11)])[0]? = some (1, 10) := by rw [hs]; rfl
      simp only [ne_eq, hne, not_false_eq_true, if_true, Nat.not_lt_zero, if_false, hget]
      refine ih { slots := s.slots ++ [(s.slots.length + 1, 11)], conns := s.conns ++ [(s.slots.length + 1, s.slots.length + 1)] }
        (rest ++ [(s.slots.length + 1, 11)]) _ (by simp [hs]) ?_ ?_ (by simp; omega)
      · simp only [List.map_append, List.length_append, List.map_cons, List.map_nil, List.length_cons, List.length_nil]
        rw [hk, List.range'_concat]
        simp; omega
      · simp only [List.map_append, List.length_append, List.map_cons, List.map_nil, List.length_cons, List.length_nil]
        rw [hc, List.range'_concat]
        simp; omega
  exact key n { slots := [(1, 10)], conns := [(1, 1)] } [] [] rfl rfl rfl (by simp; omega)

/-- C30: the end of the signal leaves no connection variable valid. -/
theorem signal_end_invalidates (s : State) (h0 : ∀ e ∈ s.conns, e.2 ≠ 0) (a : Nat) : isValid (destroySignal s) a = false := by
  have key : ∀ (as : List Nat) (s : State), (∀ e ∈ s.conns, e.2 ≠ 0) →
      ∀ e ∈ (as.foldl disconnect s).conns, e ∈ s.conns ∧ e.1 ∉ as := by
    intro as
    induction as with
    | nil => intro s _ e he; exact ⟨he, by simp⟩
    | cons b as ih =>
      intro s h0 e he
      have hsub : ∀ e ∈ (disconnect s b).conns, e ∈ s.conns ∧ e.1 ≠ b := by
        intro e he
        unfold disconnect at he
        cases hl : lookup s.conns b with
        | none =>
          simp only [hl] at he
          exact ⟨he, lookup_none.mp hl e he⟩
        | some k =>
          have hk : k ≠ 0 := h0 _ (lookup_some_mem hl)
          simp only [hl, hk, if_false] at he
          have := List.mem_filter.mp he
          exact ⟨this.1, by simpa using this.2⟩
      obtain ⟨h1, h2⟩ := ih (disconnect s b) (fun e he => h0 e (hsub e he).1) e he
      exact ⟨(hsub e h1).1, by simp [(hsub e h1).2, h2]⟩
  unfold isValid
  split
  · rename_i k hk
    unfold destroySignal at hk
    have := key (s.conns.map (·.1)) s h0 _ (lookup_some_mem hk)
    exact absurd (List.mem_map.mpr ⟨_, this.1, rfl⟩) this.2
  · rfl

end Verif.Sig
