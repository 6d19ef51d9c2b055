import Verif.Lemmas.Sort
/-
C01, C02, C03: ordering of the passes by `FrameGraph::compile`.
-/
namespace Verif.Sort

/-! A concrete diamond `A → B, C → D` plus a second root, declared in a scrambled order; used as
non-vacuity witness. -/
def exA : Pass := ⟨10, 1, []⟩
def exB : Pass := ⟨11, 2, [⟨10, 1⟩]⟩
def exC : Pass := ⟨12, 3, [⟨10, 1⟩]⟩
def exD : Pass := ⟨13, 4, [⟨11, 2⟩, ⟨12, 3⟩]⟩
def exE : Pass := ⟨14, 5, []⟩
def exDiamond : List Pass := [exD, exC, exA, exB, exE]

theorem exDiamond_wf : WellFormed exDiamond :=
  ⟨by decide, by decide, by decide⟩

/-! ### C01 -/

/-- C01. Whenever compilation orders the passes without throwing, the execution order is a permutation of
the declared passes. No assumption on the dependency relation (cycles, foreign passes allowed). -/
theorem compile_order_is_permutation (passes order : List Pass) (hwf : WellFormed passes)
    (h : compileOrder passes = .ok order) : order.Perm passes := by
  unfold compileOrder at h
  split at h
  · simp at h
  · unfold sortPasses at h
    have hr : RefsOk passes := hwf.refs
    have hinit := @inv_init passes
    simp only at h
    split at h
    · rename_i he
      split at h
      · simp at h
      · rename_i p ps hps
        have hperm : ([p] ++ ps).Perm passes := by
          have := hinit.perm
          simp only [List.isEmpty_iff.1 he, hps] at this
          simpa using this
        refine (sortLoop_perm [p] ps ?_ (hr.perm hperm) order h).trans hperm
        intro q hq
        have := hinit.deps q
        simp [hps, hq] at this
        exact this
    · have hperm := hinit.perm
      simp only [List.append_nil] at hperm
      have hperm' := List.perm_append_comm.trans hperm
      exact (sortLoop_perm _ _ (by simp) (hr.perm hperm') order h).trans hperm'

/-- C01, in terms of counting: each declared pass is executed exactly once and nothing else is. -/
theorem compile_runs_each_pass_once (passes order : List Pass) (hwf : WellFormed passes)
    (h : compileOrder passes = .ok order) (p : Pass) :
    order.count p = if p ∈ passes then 1 else 0 := by
  rw [(compile_order_is_permutation passes order hwf h).count_eq]
  split
  · rename_i hp; exact (List.Nodup.count (wf_nodup hwf)).trans (by simp [hp])
  · rename_i hp; exact List.count_eq_zero.2 hp

example : compileOrder exDiamond = .ok [exA, exB, exC, exD, exE] := by
  simp [compileOrder, sortPasses, exDiamond, exA, exB, exC, exD, exE]
  rw [sortLoop]; simp [round, processPass, isSorted, insertBeforeFirst, insertAfterLast, dependsOn]
  rw [sortLoop]; simp [round, processPass, isSorted, insertBeforeFirst, insertAfterLast, dependsOn]
  rw [sortLoop]; simp

/-! ### C02, C03 -/

/-- The whole ordering contract under the assumption that some pass has no dependency: the outcome is a valid
order, or an exception and then no valid order exists. -/
theorem compile_order_spec (passes : List Pass) (hwf : WellFormed passes) (hroot : HasRoot passes) :
    match compileOrder passes with
    | .ok order => ValidOrder passes order
    | .error _ => ¬ ∃ order, ValidOrder passes order := by
  unfold compileOrder sortPasses
  have hne : ¬ passes.isEmpty = true := by
    obtain ⟨p, hp, _⟩ := hroot
    intro h; simp at h; subst h; simp at hp
  have hr : ¬ (passes.filter (fun p => p.deps.isEmpty)).isEmpty = true := by
    rw [roots_empty]; exact fun h => h hroot
  rw [if_neg hne]
  simp only
  rw [if_neg hr]
  exact sortLoop_spec hwf _ _ inv_init

/-- C02 (partial: assumes a pass without dependencies, see `cyclic_graph_accepted` for the other case).
If compilation succeeds, each pass runs after every pass it depends on. -/
theorem deps_run_first_partial (passes order : List Pass) (hwf : WellFormed passes)
    (hroot : HasRoot passes) (h : compileOrder passes = .ok order) : DepsFirst order := by
  have := compile_order_spec passes hwf hroot
  rw [h] at this
  exact this.2

example : HasRoot exDiamond := ⟨exA, by decide, rfl⟩

/-- C03 (partial: assumes a pass without dependencies). Ordering fails iff no valid order exists. -/
theorem sort_fails_iff_no_order_partial (passes : List Pass) (hwf : WellFormed passes)
    (hroot : HasRoot passes) :
    (∃ e, compileOrder passes = .error e) ↔ ¬ ∃ order, ValidOrder passes order := by
  have := compile_order_spec passes hwf hroot
  cases h : compileOrder passes with
  | ok r =>
    rw [h] at this
    constructor
    · rintro ⟨e, he⟩; simp at he
    · intro hn; exact absurd ⟨r, this⟩ hn
  | error e =>
    rw [h] at this
    exact ⟨fun _ => this, fun _ => ⟨e, rfl⟩⟩

/-- A non-empty set of passes that all have dependencies has no valid order. -/
theorem no_root_no_order (passes : List Pass) (hne : passes ≠ []) (hroot : ¬ HasRoot passes) :
    ¬ ∃ order, ValidOrder passes order := by
  rintro ⟨order, hp, ho⟩
  cases order with
  | nil => exact hne (List.nil_perm.1 hp)
  | cons p r =>
    have hpd : p.deps ≠ [] := fun h => hroot ⟨p, hp.subset (by simp), h⟩
    obtain ⟨d, hd⟩ := List.exists_mem_of_ne_nil _ hpd
    obtain ⟨q, hq, _⟩ := ho [] p r rfl d hd
    simp at hq

/-- C03, completeness half, for *every* set of passes: if a valid order exists, compilation succeeds, and
returns a valid order. In particular a set of passes is never spuriously rejected. -/
theorem sortable_implies_sorted (passes : List Pass) (hwf : WellFormed passes) (hne : passes ≠ [])
    (h : ∃ order, ValidOrder passes order) :
    ∃ order, compileOrder passes = .ok order ∧ ValidOrder passes order := by
  have hroot : HasRoot passes := Classical.byContradiction (fun hn => no_root_no_order passes hne hn h)
  have := compile_order_spec passes hwf hroot
  cases hc : compileOrder passes with
  | ok r => rw [hc] at this; exact ⟨r, rfl, this⟩
  | error e => rw [hc] at this; exact absurd h this

/-- C03, the exact error: compilation never runs into undefined behaviour, and the only exceptions are
"No FramePass registered" for an empty graph and "Couldn't sort passes". -/
theorem compile_errors (passes : List Pass) (e : Error) (h : compileOrder passes = .error e) :
    (passes = [] ∧ e = .noPass) ∨ (passes ≠ [] ∧ e = .couldntSort) := by
  have hloop : ∀ s u, sortLoop s u = .error e → e = .couldntSort := by
    intro s u hs
    fun_induction sortLoop s u with
    | case1 => simp at hs
    | case2 _ _ _ _ _ ih => exact ih hs
    | case3 => simp at hs; exact hs.symm
  unfold compileOrder at h
  split at h
  · rename_i he
    simp at he h; exact Or.inl ⟨he, h.symm⟩
  · rename_i he
    refine Or.inr ⟨by simpa using he, ?_⟩
    unfold sortPasses at h
    simp only at h
    split at h
    · rename_i hr
      split at h
      · rename_i hu
        exfalso
        have := @inv_init passes
        have hp := this.perm
        simp only [List.isEmpty_iff.1 hr, hu] at hp
        simp at hp
        simp [hp] at he
      · exact hloop _ _ h
    · exact hloop _ _ h

/-! ### Disagreement with C02/C03: a graph without any root pass -/

def cycA : Pass := ⟨10, 1, [⟨11, 2⟩]⟩
def cycB : Pass := ⟨11, 2, [⟨10, 1⟩]⟩

/-- The full C02 and C03 are false of the code: two passes depending on each other are accepted, and the
order returned violates a dependency, although no valid order exists. -/
theorem cyclic_graph_accepted :
    ∃ passes order, WellFormed passes ∧ compileOrder passes = .ok order
      ∧ ¬ DepsFirst order ∧ ¬ ∃ o, ValidOrder passes o := by
  refine ⟨[cycA, cycB], [cycB, cycA], ⟨by decide, by decide, by decide⟩, ?_, ?_, ?_⟩
  · simp [compileOrder, sortPasses, cycA, cycB]
    rw [sortLoop]; simp [round, processPass, isSorted, insertBeforeFirst, dependsOn]
    rw [sortLoop]; simp
  · intro h
    obtain ⟨q, hq, _⟩ := h [] cycB [cycA] rfl ⟨10, 1⟩ (by simp [cycB])
    simp at hq
  · exact no_root_no_order _ (by simp) (by simp [HasRoot, cycA, cycB])

/-- A pass depending on itself is accepted as well. -/
theorem self_dependency_accepted :
    compileOrder [⟨7, 1, [⟨7, 1⟩]⟩] = .ok [⟨7, 1, [⟨7, 1⟩]⟩] := by
  simp [compileOrder, sortPasses]
  rw [sortLoop]; simp

/-- With a root, the cycle is detected: non-vacuity of the error branch of `sort_fails_iff_no_order_partial`. -/
example : compileOrder [exE, cycA, cycB] = .error .couldntSort := by
  simp [compileOrder, sortPasses, cycA, cycB, exE]
  rw [sortLoop]; simp [round, processPass, isSorted]

end Verif.Sort
