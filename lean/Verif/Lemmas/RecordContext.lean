import Verif.Lemmas.Layout
import Verif.Lemmas.Util
import Verif.Spec.Gpu
import Verif.Lemmas.Formats
/- Helper lemmas for the recording context and the GPU interpreter. -/
namespace Verif.Gpu
open Verif.Rec

theorem execAll_append (g : Layouts) (a b : List Cmd) : execAll g (a ++ b) = execAll (execAll g a) b := by
  simp [execAll]

theorem execAll_snoc (g : Layouts) (a : List Cmd) (c : Cmd) : execAll g (a ++ [c]) = exec (execAll g a) c := by
  simp [execAll]

theorem streamValid_append (g : Layouts) (a b : List Cmd) :
    StreamValid g (a ++ b) ↔ StreamValid g a ∧ StreamValid (execAll g a) b := by
  induction a generalizing g with
  | nil => simp [StreamValid, execAll]
  | cons c a ih => simp [StreamValid, execAll, ih, and_assoc]

theorem streamValid_snoc (g : Layouts) (a : List Cmd) (c : Cmd) :
    StreamValid g (a ++ [c]) ↔ StreamValid g a ∧ Valid (execAll g a) c := by
  simp [streamValid_append, StreamValid]

theorem adaptRange_has (s : Bool) (f : Nat) (r : Range) (l m : Nat) : (adaptRange s f r).Has l m ↔ r.Has l m := by
  unfold adaptRange
  split <;> simp [Range.Has]

theorem adaptRange_dims (s : Bool) (f : Nat) (r : Range) :
    (adaptRange s f r).baseMip = r.baseMip ∧ (adaptRange s f r).levels = r.levels
    ∧ (adaptRange s f r).baseLayer = r.baseLayer ∧ (adaptRange s f r).layers = r.layers := by
  unfold adaptRange
  split <;> simp

theorem adaptRange_whole {s : Bool} {f : Nat} {r : Range} (h : WholeAspect s f r.aspect) :
    (adaptRange s f r).aspect = aspects f := by
  unfold adaptRange
  rw [← getAspectMask_eq]
  rw [WholeAspect, ← getAspectMask_eq, getAspectMask_eq, ← isDepthStencil_iff, ← getAspectMask_eq] at h
  rcases h with h | ⟨h1, h2, h3⟩
  · split
    · rename_i hc
      simp at hc
      simp [getAspectMask, hc.2.1]
    · exact h
  · rw [if_pos]
    · simp [getAspectMask, h2]
    · simp [h1, h2, h3]

theorem virtual_adapt (img : Image) (vt : ViewType) (s f) (r : Range) (l m : Nat) :
    (getVirtualRange img vt (adaptRange s f r)).Has l m ↔ (getVirtualRange img vt r).Has l m := by
  have h := adaptRange_dims s f r
  unfold getVirtualRange
  rw [h.2.1]
  split <;> simp [Range.Has, h.1, h.2.1, h.2.2.1, h.2.2.2]

theorem virtual_plain (img : Image) {vt : ViewType} (r : Range) (h : vt ≠ .d3) : getVirtualRange img vt r = r := by
  unfold getVirtualRange; simp [h]

/-- Result of reading: unknown everywhere gives UNDEFINED. -/
theorem getState_none {m : LayoutMap} {img : Image} {vt : ViewType} {r : Range}
    (h : ∀ l v, (getVirtualRange img vt r).Has l v → m.at img.id l v = none) :
    (m.getState img vt r).layout = Layout.undefined := by
  unfold LayoutMap.getState
  unfold LayoutMap.at at h
  cases hm : m img.id with
  | none => rfl
  | some x =>
    simp only [hm] at h ⊢
    unfold getSubresourceRangeLayout
    have hn : foundStates x (getVirtualRange img vt r) = [] := by
      rw [List.eq_nil_iff_forall_not_mem]
      intro t ht
      obtain ⟨l, v, h1, h2⟩ := mem_foundStates.1 ht
      rw [h l v h1] at h2
      simp at h2
    rw [hn]
    rfl

/-- The layout read is that of some tracked subresource, if there is one. -/
theorem getState_mem {m : LayoutMap} {img : Image} {vt : ViewType} {r : Range}
    (h : ∃ l v, (getVirtualRange img vt r).Has l v ∧ (m.at img.id l v).isSome) :
    ∃ l v t, (getVirtualRange img vt r).Has l v ∧ m.at img.id l v = some t
      ∧ t.layout = (m.getState img vt r).layout := by
  unfold LayoutMap.at at *
  cases hm : m img.id with
  | none => simp [hm] at h
  | some x =>
    simp only [hm] at h ⊢
    have hg : m.getState img vt r = getSubresourceRangeLayout x (getVirtualRange img vt r) := by
      simp [LayoutMap.getState, hm]
    rw [hg]
    obtain ⟨l0, v0, h0, hs0⟩ := h
    obtain ⟨t0, ht0⟩ := Option.isSome_iff_exists.1 hs0
    have hscan := scan_found x (getVirtualRange img vt r)
    unfold getSubresourceRangeLayout
    generalize hacc : (foundStates x (getVirtualRange img vt r)).foldl (fun acc s => emplaceState s acc) [] = acc
    rw [hacc] at hscan
    cases acc with
    | nil =>
      have := (hscan.layouts t0.layout).2 ⟨t0, mem_foundStates.2 ⟨l0, v0, h0, ht0⟩, rfl⟩
      simp at this
    | cons u us =>
      obtain ⟨t, ht, e⟩ := (hscan.layouts u.layout).1 ⟨u, by simp, rfl⟩
      obtain ⟨l, v, h1, h2⟩ := mem_foundStates.1 ht
      exact ⟨l, v, t, h1, h2, e⟩

/-- The two outcomes of an image barrier. -/
theorem imageBarrier_cases (env : Env) (r : Rec) (img : Image) (vt : ViewType) (sub : Range) (initial : Nat)
    (wanted : LayoutState) (force : Bool) :
    ∃ src : LayoutState,
      src = (if (r.ctx.images.getState img vt (adaptRange env.sepDS img.format sub)).layout = Layout.undefined
        then makeLayoutState initial else r.ctx.images.getState img vt (adaptRange env.sepDS img.format sub)) ∧
      (((force = true ∨ ((src.layout ≠ wanted.layout ∨ src.state.stage ≠ wanted.state.stage)
          ∧ wanted.layout ≠ Layout.undefined)) ∧
        r.imageBarrier env img vt sub initial wanted force =
          ⟨r.ctx.setLayout img vt (adaptRange env.sepDS img.format sub) wanted,
            r.cmds ++ [.imageBarrier img.id (adaptRange env.sepDS img.format sub) src.state wanted.state src.layout
              wanted.layout]⟩)
      ∨ (¬ (force = true ∨ ((src.layout ≠ wanted.layout ∨ src.state.stage ≠ wanted.state.stage)
          ∧ wanted.layout ≠ Layout.undefined)) ∧
        r.imageBarrier env img vt sub initial wanted force = r)) := by
  refine ⟨_, rfl, ?_⟩
  unfold Rec.imageBarrier
  simp only
  generalize (if (r.ctx.images.getState img vt (adaptRange env.sepDS img.format sub)).layout = Layout.undefined
    then makeLayoutState initial else r.ctx.images.getState img vt (adaptRange env.sepDS img.format sub)) = src
  by_cases h : (force = true ∨ ((src.layout ≠ wanted.layout ∨ src.state.stage ≠ wanted.state.stage)
          ∧ wanted.layout ≠ Layout.undefined))
  · left
    refine ⟨h, ?_⟩
    rw [if_pos]
    · rfl
    · simpa using h
  · right
    refine ⟨h, ?_⟩
    rw [if_neg]
    simpa using h

end Verif.Gpu
