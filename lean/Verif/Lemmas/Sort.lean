import Verif.Spec.Sort
import Verif.Lemmas.Util
/- Helper lemmas for the pass ordering. -/
namespace Verif.Sort

theorem insertBeforeFirst_none {pred x} : ∀ {l : List Pass},
    insertBeforeFirst pred x l = none ↔ ∀ y ∈ l, pred y = false
  | [] => by simp [insertBeforeFirst]
  | y :: ys => by
    have := @insertBeforeFirst_none pred x ys
    unfold insertBeforeFirst
    split
    · simp_all
    · simp_all

theorem insertBeforeFirst_perm {pred x} : ∀ {l r : List Pass},
    insertBeforeFirst pred x l = some r → r.Perm (x :: l)
  | [], r, h => by simp [insertBeforeFirst] at h
  | y :: ys, r, h => by
    unfold insertBeforeFirst at h
    split at h
    · simp at h; subst h; exact List.Perm.refl _
    · rw [Option.map_eq_some_iff] at h
      obtain ⟨a, ha, rfl⟩ := h
      exact ((insertBeforeFirst_perm ha).cons y).trans (List.Perm.swap _ _ _)

theorem insertAfterLast_none {pred x} : ∀ {l : List Pass},
    insertAfterLast pred x l = none ↔ ∀ y ∈ l, pred y = false
  | [] => by simp [insertAfterLast]
  | y :: ys => by
    have := @insertAfterLast_none pred x ys
    unfold insertAfterLast
    split
    · rename_i r hr
      rw [hr] at this
      simp at this
      simp; intro _; obtain ⟨z, hz⟩ := this; exact ⟨z, hz⟩
    · rename_i hr
      have := this.1 hr
      by_cases hy : pred y <;> simp_all

theorem insertAfterLast_some {pred x} : ∀ {l r : List Pass},
    insertAfterLast pred x l = some r →
      ∃ a y b, l = a ++ y :: b ∧ pred y = true ∧ (∀ z ∈ b, pred z = false) ∧ r = a ++ y :: x :: b
  | [], r, h => by simp [insertAfterLast] at h
  | y :: ys, r, h => by
    unfold insertAfterLast at h
    split at h
    · rename_i r' hr
      simp at h; subst h
      obtain ⟨a, z, b, h1, h2, h3, h4⟩ := insertAfterLast_some hr
      exact ⟨y :: a, z, b, by simp [h1], h2, h3, by simp [h4]⟩
    · rename_i hr
      split at h
      · rename_i hy
        simp at h; subst h
        exact ⟨[], y, ys, by simp, hy, insertAfterLast_none.1 hr, by simp⟩
      · simp at h

theorem insertAfterLast_perm {pred x} {l r : List Pass}
    (h : insertAfterLast pred x l = some r) : r.Perm (x :: l) := by
  obtain ⟨a, y, b, rfl, _, _, rfl⟩ := insertAfterLast_some h
  have : (a ++ y :: x :: b).Perm (a ++ x :: y :: b) := List.Perm.append_left a (List.Perm.swap _ _ _)
  exact this.trans List.perm_middle

/-! ### Permutation (holds whatever the dependencies) -/

/-- A pass that has dependencies is never dropped. -/
theorem processPass_perm (s : RoundState) (p : Pass) (hp : p.deps ≠ [])
    (hcons : ∀ q ∈ s.sorted, ∀ d ∈ p.deps, q.addr = d.addr → d.id = q.id) :
    ((processPass s p).sorted ++ (processPass s p).unsorted).Perm (p :: (s.sorted ++ s.unsorted)) := by
  unfold processPass
  split
  · have : (s.sorted ++ (s.unsorted ++ [p])).Perm (s.sorted ++ p :: s.unsorted) :=
      List.Perm.append_left _ (List.perm_append_singleton _ _)
    exact this.trans List.perm_middle
  · rename_i hall
    split
    · rename_i r hr
      exact (insertBeforeFirst_perm hr).append_right _
    · split
      · rename_i r hr
        exact (insertAfterLast_perm hr).append_right _
      · rename_i hr
        exfalso
        rw [insertAfterLast_none] at hr
        obtain ⟨d, hd⟩ := List.exists_mem_of_ne_nil _ hp
        simp [isSorted] at hall
        obtain ⟨q, hq, hqd⟩ := hall d hd
        have h1 := hr q hq
        have h2 := hcons q hq d hd hqd
        simp [dependsOn] at h1
        exact h1 d hd h2

/-- Consistency of pointers with ids, for the whole set of passes at hand. -/
def RefsOk (u : List Pass) : Prop :=
  ∀ p ∈ u, ∀ d ∈ p.deps, ∀ q ∈ u, d.addr = q.addr → d.id = q.id

theorem RefsOk.perm {u v : List Pass} (h : RefsOk u) (hp : v.Perm u) : RefsOk v :=
  fun p hp' d hd q hq => h p (hp.subset hp') d hd q (hp.subset hq)

theorem foldl_perm (c : List Pass) (s : RoundState) (hc : ∀ p ∈ c, p.deps ≠ [])
    (hrefs : RefsOk (c ++ (s.sorted ++ s.unsorted))) :
    ((c.foldl processPass s).sorted ++ (c.foldl processPass s).unsorted).Perm
      (c ++ (s.sorted ++ s.unsorted)) := by
  induction c generalizing s with
  | nil => simp
  | cons p ps ih =>
    simp only [List.foldl_cons]
    have hpp := processPass_perm s p (hc p (by simp)) (by
      intro q hq d hd h
      exact hrefs p (by simp) d hd q (by simp [hq]) h.symm)
    have hperm : (ps ++ ((processPass s p).sorted ++ (processPass s p).unsorted)).Perm
        ((p :: ps) ++ (s.sorted ++ s.unsorted)) :=
      (List.Perm.append_left ps hpp).trans List.perm_middle
    exact (ih _ (fun q hq => hc q (by simp [hq])) (hrefs.perm hperm)).trans hperm

theorem processPass_unsorted_mem (s : RoundState) (p q : Pass)
    (h : q ∈ (processPass s p).unsorted) : q ∈ s.unsorted ∨ q = p := by
  unfold processPass at h
  split at h
  · simpa using h
  · split at h
    · exact Or.inl h
    · split at h <;> exact Or.inl h

theorem foldl_unsorted_mem (c : List Pass) (s : RoundState) (q : Pass)
    (h : q ∈ (c.foldl processPass s).unsorted) : q ∈ s.unsorted ∨ q ∈ c := by
  induction c generalizing s with
  | nil => exact Or.inl h
  | cons p ps ih =>
    rcases ih _ h with h | h
    · rcases processPass_unsorted_mem s p q h with h | h
      · exact Or.inl h
      · exact Or.inr (by simp [h])
    · exact Or.inr (by simp [h])

theorem round_perm (sorted current : List Pass) (hc : ∀ p ∈ current, p.deps ≠ [])
    (hrefs : RefsOk (sorted ++ current)) :
    ((round sorted current).sorted ++ (round sorted current).unsorted).Perm (sorted ++ current) := by
  have hp : (current ++ (sorted ++ [])).Perm (sorted ++ current) := by
    simpa using List.perm_append_comm
  exact (foldl_perm current ⟨sorted, [], false⟩ hc (hrefs.perm hp)).trans hp

theorem round_unsorted_mem (sorted current : List Pass) (q : Pass)
    (h : q ∈ (round sorted current).unsorted) : q ∈ current := by
  rcases foldl_unsorted_mem current _ q h with h | h
  · simp at h
  · exact h

theorem sortLoop_perm (sorted unsorted : List Pass) (hc : ∀ p ∈ unsorted, p.deps ≠ [])
    (hrefs : RefsOk (sorted ++ unsorted)) (r : List Pass) (h : sortLoop sorted unsorted = .ok r) :
    r.Perm (sorted ++ unsorted) := by
  fun_induction sortLoop sorted unsorted with
  | case1 sorted unsorted he =>
    simp at he h; subst he; subst h; simp
  | case2 sorted unsorted he ha _ ih =>
    have hp := round_perm sorted unsorted hc hrefs
    exact (ih (fun p hp' => hc p (round_unsorted_mem _ _ _ hp')) (hrefs.perm hp) h).trans hp
  | case3 => simp at h

/-! ### Order -/

theorem DepsFirst.mem {l : List Pass} (h : DepsFirst l) {p : Pass} (hp : p ∈ l) :
    ∀ d ∈ p.deps, ∃ q ∈ l, q.addr = d.addr := by
  intro d hd
  obtain ⟨a, b, rfl⟩ := List.append_of_mem hp
  obtain ⟨q, hq, h⟩ := h a p b rfl d hd
  exact ⟨q, by simp [hq], h⟩

/-- `DepsFirst` in inductive form. -/
theorem depsFirst_snoc {l : List Pass} {p : Pass} :
    DepsFirst (l ++ [p]) ↔ DepsFirst l ∧ ∀ d ∈ p.deps, ∃ q ∈ l, q.addr = d.addr := by
  constructor
  · intro h
    refine ⟨?_, h l p [] rfl⟩
    intro a q b hl
    exact h a q (b ++ [p]) (by simp [hl])
  · rintro ⟨h1, h2⟩ a q b hl
    rcases List.eq_nil_or_concat b with rfl | ⟨b', z, rfl⟩
    · have := List.append_inj_left' hl rfl
      have h3 := List.append_inj_right' hl rfl
      simp at h3; subst h3; subst this; exact h2
    · have : l ++ [p] = (a ++ q :: b') ++ [z] := by simp [hl]
      have := List.append_inj_left' this rfl
      exact h1 a q b' this

theorem depsFirst_prefix {a b : List Pass} (h : DepsFirst (a ++ b)) : DepsFirst a := by
  intro l p r hl
  exact h l p (r ++ b) (by simp [hl])

theorem depsFirst_insert {a b : List Pass} {x : Pass} (h : DepsFirst (a ++ b))
    (hx : ∀ d ∈ x.deps, ∃ q ∈ a, q.addr = d.addr) : DepsFirst (a ++ x :: b) := by
  revert h
  refine snocInduction (P := fun b => DepsFirst (a ++ b) → DepsFirst (a ++ x :: b)) ?_ ?_ b
  · intro h; exact depsFirst_snoc.2 ⟨by simpa using h, hx⟩
  · intro b z ih h
    have h' : DepsFirst ((a ++ b) ++ [z]) := by simpa using h
    rw [depsFirst_snoc] at h'
    have : a ++ x :: (b ++ [z]) = (a ++ x :: b) ++ [z] := by simp
    rw [this, depsFirst_snoc]
    refine ⟨ih h'.1, ?_⟩
    intro d hd
    obtain ⟨q, hq, e⟩ := h'.2 d hd
    refine ⟨q, ?_, e⟩
    simp at hq ⊢
    rcases hq with hq | hq <;> simp [hq]

/-- Loop invariant of the `for` loop; `pending` are the passes of the round still to process. -/
structure Inv (u : List Pass) (pending : List Pass) (s : RoundState) : Prop where
  perm : (pending ++ (s.sorted ++ s.unsorted)).Perm u
  order : DepsFirst s.sorted
  deps : ∀ p ∈ pending ++ s.unsorted, p.deps ≠ []

theorem wf_id_inj {u : List Pass} (h : WellFormed u) {p q : Pass} (hp : p ∈ u) (hq : q ∈ u)
    (he : p.id = q.id) : p = q := map_nodup_inj _ h.ids hp hq he

theorem wf_nodup {u : List Pass} (h : WellFormed u) : u.Nodup :=
  nodup_of_map _ h.ids

theorem Inv.step {u ps : List Pass} {p : Pass} {s : RoundState} (hu : WellFormed u)
    (h : Inv u (p :: ps) s) : Inv u ps (processPass s p) := by
  have hsub : ∀ q, q ∈ p :: ps ++ (s.sorted ++ s.unsorted) → q ∈ u := fun q hq => h.perm.subset hq
  have hpu : p ∈ u := hsub p (by simp)
  have hperm0 := processPass_perm s p (h.deps p (by simp)) (by
      intro q hq d hd e
      exact hu.refs p hpu d hd q (hsub q (by simp [hq])) e.symm)
  have hperm : (ps ++ ((processPass s p).sorted ++ (processPass s p).unsorted)).Perm u :=
    ((List.Perm.append_left ps hperm0).trans List.perm_middle).trans (by simpa using h.perm)
  refine ⟨hperm, ?_, ?_⟩
  · unfold processPass
    split
    · exact h.order
    · rename_i hall
      have hall' : ∀ d ∈ p.deps, ∃ q ∈ s.sorted, q.addr = d.addr := by
        simpa [isSorted] using hall
      have hno : insertBeforeFirst (fun l => dependsOn l p) p s.sorted = none := by
        rw [insertBeforeFirst_none]
        intro y hy
        cases hdep : dependsOn y p with
        | false => rfl
        | true =>
          exfalso
          simp [dependsOn] at hdep
          obtain ⟨d, hd, hid⟩ := hdep
          obtain ⟨q, hq, hqd⟩ := h.order.mem hy d hd
          have h1 := hu.refs y (hsub y (by simp [hy])) d hd q (hsub q (by simp [hq])) hqd.symm
          have h2 : q = p := wf_id_inj hu (hsub q (by simp [hq])) hpu (by omega)
          subst h2
          have := (h.perm.nodup_iff).2 (wf_nodup hu)
          simp at this
          exact this.1.2.1 hq
      rw [hno]
      simp only
      split
      · rename_i r hr
        obtain ⟨a, y, b, h1, h2, h3, rfl⟩ := insertAfterLast_some hr
        have : a ++ y :: p :: b = (a ++ [y]) ++ p :: b := by simp
        simp only [this]
        apply depsFirst_insert
        · have := h.order; rw [h1] at this; simpa using this
        · intro d hd
          obtain ⟨q, hq, hqd⟩ := hall' d hd
          have hqu := hsub q (by simp [hq])
          refine ⟨q, ?_, hqd⟩
          rw [h1] at hq
          simp at hq ⊢
          rcases hq with hq | hq | hq
          · exact Or.inl hq
          · exact Or.inr hq
          · exfalso
            have := h3 q hq
            simp [dependsOn] at this
            exact this d hd (hu.refs p hpu d hd q hqu hqd.symm)
      · exact h.order
  · intro q hq
    simp at hq
    rcases hq with hq | hq
    · exact h.deps q (by simp [hq])
    · rcases processPass_unsorted_mem s p q hq with hq | rfl
      · exact h.deps q (by simp [hq])
      · exact h.deps q (by simp)

theorem Inv.foldl {u c : List Pass} {s : RoundState} (hu : WellFormed u) (h : Inv u c s) :
    Inv u [] (c.foldl processPass s) := by
  induction c generalizing s with
  | nil => exact h
  | cons p ps ih => exact ih (h.step hu)

/-- If nothing was added in a round, every pass was put back and has an unsorted dependency. -/
theorem foldl_not_added {u c : List Pass} {s : RoundState} (hu : WellFormed u) (h : Inv u c s)
    (hn : (c.foldl processPass s).added = false) :
    s.added = false ∧ (c.foldl processPass s).sorted = s.sorted
      ∧ ∀ p ∈ c, ∃ d ∈ p.deps, isSorted s.sorted d = false := by
  induction c generalizing s with
  | nil => exact ⟨hn, rfl, by simp⟩
  | cons p ps ih =>
    obtain ⟨h1, h2, h3⟩ := ih (h.step hu) hn
    by_cases hall : (! p.deps.all (isSorted s.sorted)) = true
    · have e : processPass s p = { s with unsorted := s.unsorted ++ [p] } := by
        unfold processPass; rw [if_pos hall]
      simp only [List.foldl_cons]
      rw [e] at h1 h2 h3 ⊢
      refine ⟨h1, h2, ?_⟩
      intro q hq
      simp at hq
      rcases hq with rfl | hq
      · simp only [Bool.not_eq_true'] at hall
        rw [List.all_eq_false] at hall
        obtain ⟨d, hd, hd'⟩ := hall
        exact ⟨d, hd, by simpa using hd'⟩
      · exact h3 q hq
    · exfalso
      have hall' : ∀ d ∈ p.deps, ∃ q ∈ s.sorted, q.addr = d.addr := by
        simpa [isSorted] using hall
      have : (processPass s p).added = true := by
        unfold processPass
        rw [if_neg hall]
        split
        · rfl
        · split
          · rfl
          · rename_i hr
            rw [insertAfterLast_none] at hr
            obtain ⟨d, hd⟩ := List.exists_mem_of_ne_nil _ (h.deps p (by simp))
            obtain ⟨q, hq, hqd⟩ := hall' d hd
            have h4 := hr q hq
            simp [dependsOn] at h4
            exact absurd (hu.refs p (h.perm.subset (by simp)) d hd q
              (h.perm.subset (by simp [hq])) hqd.symm) (h4 d hd)
      rw [this] at h1
      simp at h1

theorem exists_first {α} (P : α → Prop) [DecidablePred P] :
    ∀ (l : List α), (∃ x ∈ l, P x) → ∃ a x b, l = a ++ x :: b ∧ P x ∧ ∀ y ∈ a, ¬ P y
  | [], h => by simp at h
  | x :: xs, h => by
    by_cases hx : P x
    · exact ⟨[], x, xs, rfl, hx, by simp⟩
    · have : ∃ y ∈ xs, P y := by
        obtain ⟨y, hy, hP⟩ := h
        simp at hy
        rcases hy with rfl | hy
        · exact absurd hP hx
        · exact ⟨y, hy, hP⟩
      obtain ⟨a, y, b, h1, h2, h3⟩ := exists_first P xs this
      refine ⟨x :: a, y, b, by simp [h1], h2, ?_⟩
      intro z hz
      simp at hz
      rcases hz with rfl | hz
      · exact hx
      · exact h3 z hz

/-- A stuck configuration excludes any valid order. -/
theorem stuck_no_order {u sorted rest : List Pass} (hperm : (sorted ++ rest).Perm u)
    (hne : rest ≠ []) (hstuck : ∀ p ∈ rest, ∃ d ∈ p.deps, isSorted sorted d = false) :
    ¬ ∃ order, ValidOrder u order := by
  rintro ⟨order, hp, ho⟩
  obtain ⟨x, hx⟩ := List.exists_mem_of_ne_nil _ hne
  have hxo : x ∈ order := hp.symm.subset (hperm.subset (by simp [hx]))
  obtain ⟨a, y, b, h1, h2, h3⟩ := exists_first (· ∈ rest) order ⟨x, hxo, hx⟩
  obtain ⟨d, hd, hds⟩ := hstuck y h2
  obtain ⟨q, hq, hqd⟩ := ho a y b h1 d hd
  have hqu : q ∈ sorted ++ rest := hperm.symm.subset (hp.subset (by simp [h1, hq]))
  simp at hqu
  rcases hqu with hqs | hqr
  · simp [isSorted] at hds
    exact hds q hqs hqd
  · exact h3 q hq hqr

theorem sortLoop_spec {u : List Pass} (hu : WellFormed u) (sorted unsorted : List Pass)
    (h : Inv u unsorted ⟨sorted, [], false⟩) :
    match sortLoop sorted unsorted with
    | .ok r => ValidOrder u r
    | .error _ => ¬ ∃ order, ValidOrder u order := by
  fun_induction sortLoop sorted unsorted with
  | case1 sorted unsorted he =>
    simp at he
    subst he
    exact ⟨by simpa using h.perm, h.order⟩
  | case2 sorted unsorted he ha _ ih =>
    apply ih
    have h2 : Inv u [] (round sorted unsorted) := h.foldl hu
    refine ⟨?_, h2.order, ?_⟩
    · have h3 : ((round sorted unsorted).sorted ++ (round sorted unsorted).unsorted).Perm u := h2.perm
      simpa using List.perm_append_comm.trans h3
    · simpa using h2.deps
  | case3 sorted unsorted he ha =>
    simp at he ha
    have h2 := foldl_not_added hu h ha
    exact stuck_no_order (List.perm_append_comm.trans (by simpa using h.perm)) he h2.2.2

theorem inv_init {u : List Pass} :
    Inv u (u.filter (fun p => ! p.deps.isEmpty)) ⟨u.filter (fun p => p.deps.isEmpty), [], false⟩ := by
  refine ⟨?_, ?_, ?_⟩
  · simp only [List.append_nil]
    exact List.perm_append_comm.trans (List.filter_append_perm _ _)
  · intro l p r hl d hd
    have : p ∈ u.filter (fun p => p.deps.isEmpty) := by simp only [] at hl; rw [hl]; simp
    simp at this
    rw [this.2] at hd
    simp at hd
  · intro p hp
    simpa using (by simpa using hp : p ∈ u ∧ _).2

theorem roots_empty {u : List Pass} : (u.filter (fun p => p.deps.isEmpty)).isEmpty = true ↔ ¬ HasRoot u := by
  simp [HasRoot]

end Verif.Sort
