import Verif.Spec.Contents
import Verif.Props.Layout
import Verif.Lemmas.RunnableGraph
/- Helper lemmas on contents: barriers that don't discard. -/
namespace Verif.Gpu
open Verif.Rec Verif.Att Verif.Run

/-- Known: something is tracked in the view, and nothing of it as UNDEFINED. -/
theorem getState_known_iff {m : LayoutMap} {img : Image} {vt : ViewType} {r : Range} :
    (m.getState img vt r).layout ≠ Layout.undefined ↔
      (∃ l k, (getVirtualRange img vt r).Has l k ∧ (m.at img.id l k).isSome)
      ∧ ∀ l k t, (getVirtualRange img vt r).Has l k → m.at img.id l k = some t → t.layout ≠ Layout.undefined := by
  constructor
  · intro h
    have h1 : ∃ l k, (getVirtualRange img vt r).Has l k ∧ (m.at img.id l k).isSome := by
      by_cases hx : ∃ l k, (getVirtualRange img vt r).Has l k ∧ (m.at img.id l k).isSome
      · exact hx
      · exfalso
        refine h (getState_none ?_)
        intro l k hl
        cases hm : m.at img.id l k with
        | none => rfl
        | some t => exact absurd ⟨l, k, hl, by rw [hm]; rfl⟩ hx
    refine ⟨h1, ?_⟩
    intro l k t hl ht
    have := (get_is_some_subresource m img vt r _ (virtual_designates img vt r) h1).2.1 l k t hl ht
    have hu : Layout.undefined = 0 := rfl
    omega
  · rintro ⟨h1, h2⟩
    obtain ⟨l, k, t, hl, ht, e⟩ := getState_mem h1
    rw [← e]
    exact h2 l k t hl ht

theorem getState_adapt {m : LayoutMap} {img : Image} {vt : ViewType} {r : Range} (s : Bool) :
    (m.getState img vt (adaptRange s img.format r)).layout ≠ Layout.undefined ↔
      (m.getState img vt r).layout ≠ Layout.undefined := by
  simp only [getState_known_iff, virtual_adapt]

/-- All the layouts tracked are actual ones. -/
def Defined (c : Ctx) : Prop := ∀ i l m t, c.images.at i l m = some t → t.layout ≠ Layout.undefined

/-- Setting an actual layout keeps what is known. -/
theorem known_set {c : Ctx} {v : View} (img : Image) (vt : ViewType) (r : Range) (s : LayoutState)
    (hs : s.layout ≠ Layout.undefined) (h : Known c v) : Known (c.setLayout img vt r s) v := by
  unfold Known at *
  rw [getState_known_iff] at h ⊢
  obtain ⟨⟨l, k, hl, hk⟩, h2⟩ := h
  refine ⟨⟨l, k, hl, ?_⟩, ?_⟩
  · simp only [Ctx.setLayout, LayoutMap.at_setState]
    split
    · rfl
    · exact hk
  · intro l k t hl ht
    simp only [Ctx.setLayout, LayoutMap.at_setState] at ht
    split at ht
    · cases ht; exact hs
    · exact h2 l k t hl ht

/-- A barrier for an actual layout keeps what is known. -/
theorem known_barrier {env : Env} {r : Rec} {v : View} (w : View) (i : Nat) (wn : LayoutState) (f : Bool)
    (hw : wn.layout ≠ Layout.undefined) (h : Known r.ctx v) : Known (r.viewBarrier env w i wn f).ctx v := by
  unfold Rec.viewBarrier
  obtain ⟨src, -, ⟨-, e⟩ | ⟨-, e⟩⟩ := imageBarrier_cases env r w.image w.viewType w.range i wn f <;> rw [e]
  · exact known_set _ _ _ _ hw h
  · exact h

theorem known_final {env : Env} {r : Rec} {v : View} (w : View) (f : Nat) (h : Known r.ctx v) :
    Known (r.finalBarrier env w f).ctx v := by
  unfold Rec.finalBarrier
  split
  · rename_i hf
    exact known_barrier w _ _ _ (by simpa [makeLayoutState] using hf) h
  · exact h

theorem known_runImplicit {env : Env} {r : Rec} {v : View} (u : View) (h : Known r.ctx v) :
    Known (r.runImplicit env u).ctx v :=
  (runImplicit_lift env (fun a b => Known a.ctx v → Known b.ctx v) (fun _ => True) (fun _ => True)
    (fun _ h => h) (fun _ _ _ h1 h2 h => h2 (h1 h)) (fun _ w i wn f _ hw h => known_barrier w i wn f hw h)
    (fun _ _ _ _ h => h) (fun _ _ h => h) _ r u rfl trivial (fun _ _ _ _ _ _ _ => ⟨trivial, trivial⟩)).1 h

/-- After a barrier for an actual layout that doesn't assume one, the view is known (if it has subresources). -/
theorem barrier_known (env : Env) (r : Rec) (v : View) (i : Nat) (wn : LayoutState) (f : Bool)
    (hw : wn.layout ≠ Layout.undefined) (hne : ∃ l k, (getVirtualRange v.image v.viewType v.range).Has l k)
    (hi : Known r.ctx v ∨ i = Layout.undefined) : Known (r.viewBarrier env v i wn f).ctx v := by
  unfold Rec.viewBarrier
  obtain ⟨src, hsrc, ⟨-, e⟩ | ⟨hn, e⟩⟩ := imageBarrier_cases env r v.image v.viewType v.range i wn f <;> rw [e]
  · unfold Known
    rw [getState_known_iff]
    obtain ⟨l, k, hl⟩ := hne
    refine ⟨⟨l, k, hl, ?_⟩, ?_⟩
    · simp only [Ctx.setLayout, LayoutMap.at_setState, virtual_adapt]
      rw [if_pos ⟨trivial, hl⟩]; rfl
    · intro l k t hl ht
      simp only [Ctx.setLayout, LayoutMap.at_setState, virtual_adapt] at ht
      rw [if_pos ⟨trivial, hl⟩] at ht
      cases ht; exact hw
  · by_cases hk : Known r.ctx v
    · exact hk
    · exfalso
      have hi := hi.resolve_left hk
      have hk' : (r.ctx.images.getState v.image v.viewType (adaptRange env.sepDS v.image.format v.range)).layout
          = Layout.undefined := by
        apply Classical.byContradiction
        intro hc
        exact hk ((getState_adapt env.sepDS).1 hc)
      rw [if_pos hk', hi] at hsrc
      apply hn
      right
      refine ⟨Or.inl ?_, hw⟩
      rw [hsrc]
      exact fun e => hw e.symm

/-- A barrier for a known view discards nothing. -/
theorem barrier_keeps_contents (dev : Device) (env : Env) (r : Rec) (v : View) (i : Nat) (wn : LayoutState) (f : Bool)
    (hk : Known r.ctx v ∨ i ≠ Layout.undefined) :
    ∃ bs, (r.viewBarrier env v i wn f).cmds = r.cmds ++ bs ∧ ∀ M, steps dev M bs = M := by
  unfold Rec.viewBarrier
  obtain ⟨src, hsrc, ⟨-, e⟩ | ⟨hn, e⟩⟩ := imageBarrier_cases env r v.image v.viewType v.range i wn f <;> rw [e]
  · refine ⟨_, rfl, ?_⟩
    intro M
    have hs : src.layout ≠ Layout.undefined := by
      rw [hsrc]
      split
      · rename_i h
        rcases hk with hk | hk
        · exact absurd h ((getState_adapt env.sepDS).2 hk)
        · exact hk
      · rename_i h; exact h
    have hf : forget dev M (.imageBarrier v.image.id (adaptRange env.sepDS v.image.format v.range) src.state wn.state
        src.layout wn.layout) = M.image := by
      funext c
      unfold forget
      rw [if_neg]
      rintro ⟨h, -⟩
      exact hs h
    simp only [steps, List.foldl_cons, List.foldl_nil, step, hf]
  · exact ⟨[], by simp, fun _ => rfl⟩

theorem steps_append (dev : Device) (M : Memory) (a b : List Cmd) :
    steps dev M (a ++ b) = steps dev (steps dev M a) b := by
  simp [steps]

/-- A command that neither discards nor writes the byte leaves it. -/
theorem step_keeps {dev : Device} {k : Cmd} {c : Cell} (hd : ¬ Discards k c) (hw : ¬ Writes dev k c) (M : Memory) :
    (step dev M k).image c = M.image c := by
  cases k with
  | imageBarrier => simp [step, forget, hd]
  | bufferBarrier => rfl
  | copyImage => simp only [step]; exact if_neg hw
  | blitImage =>
    simp only [step]
    rw [if_neg]
    rintro ⟨h1, h2, -⟩
    exact hw ⟨h1, h2⟩
  | clearImage => simp only [step]; exact if_neg hw
  | fillBuffer => rfl
  | copyBuffer => rfl
  | copyBufferToImage =>
    simp only [step]
    rw [if_neg]
    rintro ⟨h1, -⟩
    exact hw h1
  | copyImageToBuffer => rfl
  | beginPass atts w h l =>
    simp only [step]
    cases hf : atts.findSome? (clearedTo w h l c) with
    | none => simp [forget, hd]
    | some v => exact absurd ⟨v, hf⟩ hw
  | endPass => simp [step, forget, hd]
  | user k =>
    simp only [step]
    apply Classical.byContradiction
    intro h; exact hw ⟨M, h⟩
  | work k =>
    simp only [step]
    apply Classical.byContradiction
    intro h; exact hw ⟨M, h⟩

theorem steps_keep {dev : Device} {c : Cell} (cs : List Cmd) (h : ∀ k ∈ cs, ¬ Discards k c ∧ ¬ Writes dev k c)
    (M : Memory) : (steps dev M cs).image c = M.image c := by
  induction cs generalizing M with
  | nil => rfl
  | cons k ks ih =>
    show (steps dev (step dev M k) ks).image c = _
    rw [ih (fun x hx => h x (by simp [hx])), step_keeps (h k (by simp)).1 (h k (by simp)).2]

/-! ### Preparing a pass -/

theorem known_current {c : Ctx} {v : View} (G : GraphSt) (w : View) (h : Known c v) :
    Known (getCurrentLayoutState G c w).2 v := by
  unfold getCurrentLayoutState
  simp only
  (repeat' split) <;> first | exact h | (apply known_set _ _ _ _ _ h; assumption)

/-- A state taken over from outside is tracked. -/
theorem current_known {c : Ctx} {v : View} (G : GraphSt)
    (hne : ∃ l k, (getVirtualRange v.image v.viewType v.range).Has l k)
    (h : (getCurrentLayoutState G c v).1.layout ≠ Layout.undefined) : Known (getCurrentLayoutState G c v).2 v := by
  have hset : ∀ s : LayoutState, s.layout ≠ Layout.undefined → Known (c.setLayout v.image v.viewType v.range s) v := by
    intro s hs
    unfold Known
    rw [getState_known_iff]
    obtain ⟨l, k, hl⟩ := hne
    refine ⟨⟨l, k, hl, ?_⟩, ?_⟩
    · simp only [Ctx.setLayout, LayoutMap.at_setState]
      rw [if_pos ⟨trivial, hl⟩]; rfl
    · intro l k t hl ht
      simp only [Ctx.setLayout, LayoutMap.at_setState] at ht
      rw [if_pos ⟨trivial, hl⟩] at ht
      cases ht; exact hs
  revert h
  unfold getCurrentLayoutState
  simp only
  intro h
  by_cases h1 : (c.images.getState v.image v.viewType v.range).layout = Layout.undefined
  · rw [if_pos h1] at h ⊢
    by_cases h2 : (G.inputs.getState v.image v.viewType v.range).layout = Layout.undefined
    · simp only [h2, ne_eq, not_true_eq_false, if_false, if_true] at h ⊢
      by_cases h3 : (G.final.images.getState v.image v.viewType v.range).layout = Layout.undefined
      · simp [h3] at h
      · simp only [h3, not_false_eq_true, if_true]
        exact hset _ h3
    · simp only [h2, ne_eq, not_false_eq_true, if_false, if_true] at h ⊢
      exact hset _ h2
  · rw [if_neg h1] at h ⊢
    rw [if_neg h1]
    exact h1

theorem recordImage_known {env : Env} {G : GraphSt} {index : Nat} {r r' : Rec} {a : Attachment} {v : View}
    (hl : moved a = true → a.getImageLayout env.sepDS ≠ Layout.undefined)
    (e : recordImage env G index r a = some r') :
    (Known r.ctx v → Known r'.ctx v)
    ∧ (moved a = true → a.img.view index = some v → HasParts v → Known r'.ctx v) := by
  unfold recordImage at e
  cases hvw : a.img.view index with
  | none => rw [hvw] at e; simp at e
  | some u =>
    rw [hvw] at e
    simp only at e
    have k1 : Known r.ctx v → Known (r.runImplicit env u).ctx v := known_runImplicit u
    generalize r.runImplicit env u = r1 at e k1
    by_cases hm : moved a = true
    · rw [if_pos hm] at e
      have hl := hl hm
      have hcur : ∃ cur : LayoutState × Ctx,
          cur = (if !a.isInput then (makeLayoutState Layout.undefined, r1.ctx) else getCurrentLayoutState G r1.ctx u)
          ∧ (Known r1.ctx v → Known cur.2 v)
          ∧ (HasParts u → Known cur.2 u ∨ cur.1.layout = Layout.undefined) := by
        refine ⟨_, rfl, ?_⟩
        split
        · exact ⟨id, fun _ => Or.inr rfl⟩
        · refine ⟨known_current G u, fun hne => ?_⟩
          by_cases h : (getCurrentLayoutState G r1.ctx u).1.layout = Layout.undefined
          · exact Or.inr h
          · exact Or.inl (current_known G hne h)
      obtain ⟨cur, ecur, k2, k3⟩ := hcur
      rw [← ecur] at e
      have hcl : clearState.layout ≠ Layout.undefined := by decide
      split at e
      · simp only [Option.some.injEq] at e
        subst e
        refine ⟨fun h => known_barrier u _ _ _ hl (known_barrier u _ _ _ hcl (k2 (k1 h))), ?_⟩
        intro _ huv hne
        cases huv
        exact known_barrier (r := Rec.emit _ _) v _ _ _ hl (barrier_known _ ⟨cur.2, r1.cmds⟩ _ _ _ _ hcl hne (k3 hne))
      · simp only [Option.some.injEq] at e
        subst e
        refine ⟨fun h => known_barrier u _ _ _ hl (k2 (k1 h)), ?_⟩
        intro _ huv hne
        cases huv
        exact barrier_known _ ⟨cur.2, r1.cmds⟩ _ _ _ _ hl hne (k3 hne)
    · rw [if_neg hm] at e
      cases e
      exact ⟨k1, fun h => absurd h hm⟩

theorem bufferBarrier_images (r : Rec) (b o s : Nat) (i w : AccessState) (f : Bool) :
    (r.bufferBarrier b o s i w f).ctx.images = r.ctx.images := by
  unfold Rec.bufferBarrier
  simp only
  generalize (if (r.ctx.getAccess b).stage = Stage.bottomOfPipe then i else r.ctx.getAccess b) = src
  split <;> rfl

theorem recordBuffers_images (compute : Bool) (index : Nat) : ∀ (as : List Attachment) (r r' : Rec),
    foldOpt (recordBuffer compute index) r as = some r' → r'.ctx.images = r.ctx.images
  | [], r, r', e => by simp only [foldOpt, Option.some.injEq] at e; rw [e]
  | a :: as, r, r', e => by
    unfold foldOpt at e
    cases h : recordBuffer compute index r a with
    | none => rw [h] at e; simp at e
    | some r1 =>
      rw [h] at e
      rw [recordBuffers_images compute index as r1 r' e]
      unfold recordBuffer at h
      simp only at h
      split at h
      · split at h
        · simp at h
        · split at h <;> simp only [Option.some.injEq] at h <;> subst h <;> simp [Rec.emit, bufferBarrier_images]
      · simp only [Option.some.injEq] at h; rw [h]

/-- Once a pass is prepared, the context knows a layout for every image it moved. -/
theorem prepare_known {env : Env} {G : GraphSt} {p : RunPass} {index : Nat} {r r' : Rec}
    (hl : ∀ a ∈ p.images, moved a = true → a.getImageLayout env.sepDS ≠ Layout.undefined)
    (e : prepare env G p index r = some r') :
    (∀ v, Known r.ctx v → Known r'.ctx v)
    ∧ ∀ a ∈ p.images, moved a = true → ∀ v, a.img.view index = some v → HasParts v → Known r'.ctx v := by
  unfold prepare at e
  cases h : foldOpt (recordImage env G index) r p.images with
  | none => rw [h] at e; simp at e
  | some r1 =>
    rw [h] at e
    have hb := recordBuffers_images p.compute index p.buffers r1 r' e
    have key : ∀ (as : List Attachment) (r r1 : Rec),
        (∀ a ∈ as, moved a = true → a.getImageLayout env.sepDS ≠ Layout.undefined) →
        foldOpt (recordImage env G index) r as = some r1 →
        (∀ v, Known r.ctx v → Known r1.ctx v)
        ∧ ∀ a ∈ as, moved a = true → ∀ v, a.img.view index = some v → HasParts v → Known r1.ctx v := by
      intro as
      induction as with
      | nil =>
        intro r r1 _ e
        simp only [foldOpt, Option.some.injEq] at e
        subst e
        exact ⟨fun _ h => h, by simp⟩
      | cons a as ih =>
        intro r r1 hl e
        unfold foldOpt at e
        cases h : recordImage env G index r a with
        | none => rw [h] at e; simp at e
        | some r2 =>
          rw [h] at e
          obtain ⟨i1, i2⟩ := ih r2 r1 (fun x hx => hl x (by simp [hx])) e
          refine ⟨fun v hv => i1 v ((recordImage_known (hl a (by simp)) h).1 hv), ?_⟩
          intro b hb hm v hv hne
          rcases List.mem_cons.1 hb with rfl | hb
          · exact i1 v ((recordImage_known (hl b (by simp)) h).2 hm hv hne)
          · exact i2 b hb hm v hv hne
    have := key p.images r r1 hl h
    refine ⟨fun v hv => ?_, fun a ha hm v hv hne => ?_⟩
    · show (r'.ctx.images.getState _ _ _).layout ≠ _
      rw [hb]; exact this.1 v hv
    · show (r'.ctx.images.getState _ _ _).layout ≠ _
      rw [hb]; exact this.2 a ha hm v hv hne

end Verif.Gpu
