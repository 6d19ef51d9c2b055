import Verif.Spec.Graph
import Verif.Spec.Memory
import Verif.Props.Implicit
/- Helper lemmas for graph recording. -/
namespace Verif.Run
open Verif.Rec Verif.Att Verif.Gpu

/-- A relation between recordings that barriers on good views, layout-free commands and forgetting a pending
transition respect is respected by running implicit transitions. -/
theorem runImplicit_lift (env : Env) (R : Rec → Rec → Prop) (P Q : View → Prop)
    (hrefl : ∀ r, R r r) (htrans : ∀ a b c, R a b → R b c → R a c)
    (hb : ∀ r w i wn f, P w → wn.layout ≠ Layout.undefined → R r (r.viewBarrier env w i wn f))
    (he : ∀ r c, (∀ g, exec g c = g) → (∀ x, ¬ Discards c x) → R r (r.emit c))
    (hx : ∀ (r : Rec) (l : List Implicit), R r { r with ctx := { r.ctx with implicit := l } }) :
    ∀ (n : Nat) (r : Rec) (v : View), r.ctx.implicit.length = n → Q v →
      (∀ t ∈ r.ctx.implicit, ∀ v, Q v → t.view.id = v.id → ∀ w ∈ touched t.action, P w ∧ Q w) →
      R r (r.runImplicit env v) ∧ ∀ t ∈ (r.runImplicit env v).ctx.implicit, t ∈ r.ctx.implicit := by
  have hfin : ∀ r w f, P w → R r (r.finalBarrier env w f) := by
    intro r w f hw
    unfold Rec.finalBarrier
    split
    · rename_i hf
      exact hb _ _ _ _ _ hw (by simpa [makeLayoutState] using hf)
    · exact hrefl r
  have kfin : ∀ (r : Rec) w f, (r.finalBarrier env w f).ctx.implicit = r.ctx.implicit :=
    fun r w f => (finalBarrier_keeps env r w f 0).1
  have kbar : ∀ (r : Rec) w i wn f, (r.viewBarrier env w i wn f).ctx.implicit = r.ctx.implicit :=
    fun r w i wn f => (viewBarrier_keeps env r w i wn f 0).1
  intro n
  induction n using Nat.strongRecOn with
  | ind n ih =>
    intro r v hn hQ hp
    cases hf : r.ctx.implicit.find? (Implicit.isFor v) with
    | none => rw [runImplicit_none _ _ _ hf]; exact ⟨hrefl r, fun t h => h⟩
    | some t =>
      rw [runImplicit_some _ _ _ _ hf]
      have hlt := eraseP_lt hf
      have hmem := List.mem_of_find?_eq_some hf
      have hid : t.view.id = v.id := by simpa [Implicit.isFor] using List.find?_some hf
      have htouch := hp t hmem v hQ hid
      have hE := hx r (r.ctx.implicit.eraseP (Implicit.isFor v))
      have hp' : ∀ u ∈ r.ctx.implicit.eraseP (Implicit.isFor v), u ∈ r.ctx.implicit :=
        fun u hu => List.mem_of_mem_eraseP hu
      simp only
      split
      · exact ⟨hE, hp'⟩
      · split
        · exact ⟨hE, hp'⟩
        · exact ⟨htrans _ _ _ hE (he _ _ (fun _ => rfl) (by intro _ h; exact h)), hp'⟩
        · rename_i src dst w h final hj
          rw [hj] at htouch
          have hs := htouch src (by simp [touched])
          have hd := htouch dst (by simp [touched])
          obtain ⟨i1, i2⟩ := ih _ (by rw [← hn]; exact hlt)
            { r with ctx := { r.ctx with implicit := r.ctx.implicit.eraseP (Implicit.isFor v) } } src rfl hs.2
            (fun u hu => hp u (hp' u hu))
          refine ⟨?_, ?_⟩
          · unfold Rec.doCopy
            exact htrans _ _ _ hE (htrans _ _ _ i1 (htrans _ _ _ (hb _ _ _ _ _ hs.1 (by decide)) (htrans _ _ _
              (hb _ _ _ _ _ hd.1 (by decide)) (htrans _ _ _ (he _ _ (fun _ => rfl) (by intro _ h; exact h)) (hfin _ _ _ hd.1)))))
          · intro u hu
            unfold Rec.doCopy at hu
            simp only [kfin] at hu
            simp only [Rec.emit, kbar] at hu
            exact hp' u (i2 u hu)
        · rename_i src dst sx sy sw sh dx dy dw dh filter final hj
          rw [hj] at htouch
          have hs := htouch src (by simp [touched])
          have hd := htouch dst (by simp [touched])
          obtain ⟨i1, i2⟩ := ih _ (by rw [← hn]; exact hlt)
            { r with ctx := { r.ctx with implicit := r.ctx.implicit.eraseP (Implicit.isFor v) } } src rfl hs.2
            (fun u hu => hp u (hp' u hu))
          refine ⟨?_, ?_⟩
          · unfold Rec.doBlit
            exact htrans _ _ _ hE (htrans _ _ _ i1 (htrans _ _ _ (hb _ _ _ _ _ hs.1 (by decide)) (htrans _ _ _
              (hb _ _ _ _ _ hd.1 (by decide)) (htrans _ _ _ (he _ _ (fun _ => rfl) (by intro _ h; exact h)) (hfin _ _ _ hd.1)))))
          · intro u hu
            unfold Rec.doBlit at hu
            simp only [kfin] at hu
            simp only [Rec.emit, kbar] at hu
            exact hp' u (i2 u hu)
        · rename_i dst value final hj
          rw [hj] at htouch
          have hd := htouch dst (by simp [touched])
          refine ⟨?_, ?_⟩
          · unfold Rec.doClear
            exact htrans _ _ _ hE (htrans _ _ _ (hb _ _ _ _ _ hd.1 (by decide)) (htrans _ _ _
              (he _ _ (fun _ => rfl) (by intro _ h; exact h)) (hfin _ _ _ hd.1)))
          · intro u hu
            unfold Rec.doClear at hu
            simp only [kfin] at hu
            simp only [Rec.emit, kbar] at hu
            exact hp' u hu

/-- Tracking only grows. -/
def Mono (r r' : Rec) : Prop := ∀ i l m, r'.ctx.images.at i l m = none → r.ctx.images.at i l m = none

theorem mono_refl (r : Rec) : Mono r r := fun _ _ _ h => h
theorem mono_trans (a b c : Rec) (h1 : Mono a b) (h2 : Mono b c) : Mono a c :=
  fun i l m h => h1 i l m (h2 i l m h)

theorem mono_barrier (env : Env) (r : Rec) (w : View) (i : Nat) (wn : LayoutState) (f : Bool) :
    Mono r (r.viewBarrier env w i wn f) := by
  unfold Rec.viewBarrier
  obtain ⟨src, -, ⟨-, e⟩ | ⟨-, e⟩⟩ := imageBarrier_cases env r w.image w.viewType w.range i wn f <;> rw [e]
  · intro i l m h
    simp only [Ctx.setLayout, LayoutMap.at_setState] at h
    split at h
    · simp at h
    · exact h
  · exact mono_refl r

theorem mono_runImplicit (env : Env) (r : Rec) (v : View) : Mono r (r.runImplicit env v) :=
  (runImplicit_lift env Mono (fun _ => True) (fun _ => True) mono_refl mono_trans
    (fun r w i wn f _ _ => mono_barrier env r w i wn f) (fun r _ _ _ => mono_refl r) (fun r _ => mono_refl r)
    _ r v rfl trivial (fun _ _ _ _ _ _ _ => ⟨trivial, trivial⟩)).1

/-- The initial layout doesn't matter for a view in a tracked state. -/
theorem barrier_tracked_initial (env : Env) (r : Rec) (v : View) (hv : v.viewType ≠ .d3) (hne : v.range.NonEmpty)
    (s : LayoutState) (hs : s.layout ≠ Layout.undefined) (hu : UniformState r.ctx.images v.image.id v.range s)
    (i j : Nat) (w : LayoutState) (f : Bool) : r.viewBarrier env v i w f = r.viewBarrier env v j w f := by
  have := getState_of_uniform (sep := env.sepDS)
    (designates_plain (q := ⟨v.image, v.viewType, v.range, 0, ⟨0, ⟨0, 0⟩⟩, false⟩) hv) hne hu
  unfold Rec.viewBarrier Rec.imageBarrier
  simp only at this ⊢
  rw [this, if_neg hs, if_neg hs]

theorem getState_plain_uniform {m : LayoutMap} {v : View} (hv : v.viewType ≠ .d3) (hne : v.range.NonEmpty)
    {s : LayoutState} (h : ∀ l k, v.range.Has l k → m.at v.image.id l k = some s) :
    m.getState v.image v.viewType v.range = s := by
  obtain ⟨l0, v0, h0⟩ := v.range.nonEmpty_iff.1 hne
  apply LayoutMap.getState_uniform
  · exact ⟨l0, v0, by rw [virtual_plain _ _ hv]; exact h0, by rw [h _ _ h0]; rfl⟩
  · intro l k t h1 h2
    rw [virtual_plain _ _ hv] at h1
    rw [h _ _ h1] at h2
    simpa using h2.symm

theorem getState_plain_none {m : LayoutMap} {v : View} (hv : v.viewType ≠ .d3)
    (h : ∀ l k, v.range.Has l k → m.at v.image.id l k = none) :
    (m.getState v.image v.viewType v.range).layout = Layout.undefined := by
  apply getState_none
  intro l k hl
  rw [virtual_plain _ _ hv] at hl
  exact h l k hl

end Verif.Run
