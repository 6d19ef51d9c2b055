import Verif.Lemmas.RunnableGraph
/-
C47 (and C14 for whole graphs): whatever subset of the passes is enabled, over any number of executions, every
recorded command is valid when it executes and every pass body starts with its images in the layouts its
attachments declare.
-/
namespace Verif.Run
open Verif.Rec Verif.Att Verif.Gpu

variable {sepDS : Bool} {fmt : Nat → Nat} {V : View → Prop} {passes : List RunPass} {g0 : Layouts} {G : GraphSt}

/-- Invariant of the recording of a tidy graph. -/
structure Inv (sepDS : Bool) (fmt : Nat → Nat) (V : View → Prop) (passes : List RunPass) (g0 : Layouts)
    (G : GraphSt) (r : Rec) : Prop where
  good : Good sepDS fmt V g0 r
  honest : ∀ i a l m s, HasAspect (fmt i) a → known r.ctx G i l m = some s → r.ctx.images.at i l m = none →
    g0 i a l m = s.layout
  pending : ∀ t ∈ r.ctx.implicit, V t.view ∧ ActionLocal passes t.view t.action

theorem honest_mono {r r' : Rec} (h : Mono r r')
    (hh : ∀ i a l m s, HasAspect (fmt i) a → known r.ctx G i l m = some s → r.ctx.images.at i l m = none →
      g0 i a l m = s.layout) :
    ∀ i a l m s, HasAspect (fmt i) a → known r'.ctx G i l m = some s → r'.ctx.images.at i l m = none →
      g0 i a l m = s.layout := by
  intro i a l m s ha hk hn
  have hn0 := h i l m hn
  refine hh i a l m s ha ?_ hn0
  unfold known at hk ⊢
  rw [hn] at hk
  rw [hn0]
  exact hk

theorem inv_barrier (hT : TidyViews sepDS fmt V passes) (en : Nat → Bool) {r : Rec}
    (h : Inv sepDS fmt V passes g0 G r) {v : View} (hv : V v) {w : LayoutState} (hw : w.layout ≠ Layout.undefined)
    (f : Bool) : Inv sepDS fmt V passes g0 G (r.viewBarrier ⟨sepDS, en⟩ v Layout.undefined w f) :=
  ⟨good_barrier hT.tidy en h.good hv hw f (Or.inl rfl), honest_mono (mono_barrier _ _ _ _ _ _) h.honest, by
    rw [(viewBarrier_keeps ⟨sepDS, en⟩ r v Layout.undefined w f 0).1]; exact h.pending⟩

theorem inv_emit {r : Rec} (h : Inv sepDS fmt V passes g0 G r) (c : Cmd) (hx : ∀ g, exec g c = g)
    (hv : Valid (execAll g0 r.cmds) c) : Inv sepDS fmt V passes g0 G (r.emit c) :=
  ⟨good_emit h.good c hx hv, h.honest, h.pending⟩

theorem touched_in {act : Action} (h : ActionIn V act) : ∀ w ∈ touched act, V w := by
  intro w hw
  cases act <;> simp [touched] at hw
  case copy => exact hw.elim (fun e => e ▸ h.1) (fun e => e ▸ h.2.1)
  case blit => exact hw.elim (fun e => e ▸ h.1) (fun e => e ▸ h.2.1)
  case clear => subst hw; exact h

theorem inv_runImplicit (hT : TidyViews sepDS fmt V passes) (en : Nat → Bool) {r : Rec}
    (h : Inv sepDS fmt V passes g0 G r) (v : View) :
    Inv sepDS fmt V passes g0 G (r.runImplicit ⟨sepDS, en⟩ v) := by
  refine ⟨good_runImplicit hT.tidy en _ r v rfl h.good, honest_mono (mono_runImplicit _ _ _) h.honest, ?_⟩
  intro t ht
  exact h.pending t ((runImplicit_lift ⟨sepDS, en⟩ Mono (fun _ => True) (fun _ => True) mono_refl mono_trans
    (fun r w i wn f _ _ => mono_barrier _ r w i wn f) (fun r _ _ _ => mono_refl r) (fun r _ => mono_refl r)
    _ r v rfl trivial (fun _ _ _ _ _ _ _ => ⟨trivial, trivial⟩)).2 t ht)

/-- The GPU's layout of `x` is the same. -/
def Untouched (g0 : Layouts) (x : View) (r r' : Rec) : Prop :=
  ∀ a l m, x.range.Has l m → execAll g0 r'.cmds x.image.id a l m = execAll g0 r.cmds x.image.id a l m

theorem untouched_trans (x : View) (a b c : Rec) (h1 : Untouched g0 x a b) (h2 : Untouched g0 x b c) :
    Untouched g0 x a c := fun _ _ _ hl => (h2 _ _ _ hl).trans (h1 _ _ _ hl)

theorem untouched_emit (x : View) (r : Rec) (c : Cmd) (hc : ∀ g, exec g c = g) : Untouched g0 x r (r.emit c) := by
  intro a l m _
  show execAll g0 (r.cmds ++ [c]) _ _ _ _ = _
  rw [execAll_snoc, hc]

theorem apart_not_same {x v : View} (hne : x.range.NonEmpty) (h : View.Apart x v) : ¬ View.Same x v := by
  rintro ⟨h1, h2⟩
  obtain ⟨l, m, hl⟩ := x.range.nonEmpty_iff.1 hne
  rcases h with h | h
  · exact h h1
  · exact h l m ⟨hl, (h2 l m).1 hl⟩

theorem untouched_runImplicit (hT : TidyViews sepDS fmt V passes) (en : Nat → Bool) {r : Rec}
    (h : Inv sepDS fmt V passes g0 G r) {v x : View} (hv : V v) (hx : AttachedTo passes x) (hap : View.Apart x v) :
    Untouched g0 x r (r.runImplicit ⟨sepDS, en⟩ v) := by
  refine (runImplicit_lift ⟨sepDS, en⟩ (Untouched g0 x) (fun w => View.Apart x w)
    (fun w => View.Apart x w ∧ V w) (fun _ _ _ _ _ => rfl) (untouched_trans x)
    (fun r w i wn f hw _ => fun a l m hl => gpu_frame_barrier en g0 r w x i wn f hw a l m hl)
    (fun r c hc _ => untouched_emit x r c hc) (fun _ _ _ _ _ _ => rfl) _ r v rfl ⟨hap, hv⟩ ?_).1
  intro t ht u hu hid w hw
  obtain ⟨h1, h2⟩ := h.pending t ht
  have hw' : V w := touched_in (h.good.pending t ht) w hw
  have : t.view = u := hT.ids _ _ h1 hu.2 hid
  subst this
  rcases h2 w hw x hx with h3 | h3
  · exact ⟨h3, h3, hw'⟩
  · exact absurd h3 (apart_not_same (hT.attached x hx).2 hu.1)

/-- Taking over the state the graph knows for an untracked view. -/
theorem inv_setKnown (hT : TidyViews sepDS fmt V passes) {r : Rec} (h : Inv sepDS fmt V passes g0 G r) {v : View}
    (hv : V v) (hn : ∀ l k, v.range.Has l k → r.ctx.images.at v.image.id l k = none) (s : LayoutState)
    (hs : s.layout ≠ Layout.undefined) (hk : ∀ l k, v.range.Has l k → known r.ctx G v.image.id l k = some s) :
    Inv sepDS fmt V passes g0 G { r with ctx := r.ctx.setLayout v.image v.viewType v.range s } := by
  have hd3 := hT.tidy.view v hv
  have hat : ∀ i l m, ({ r with ctx := r.ctx.setLayout v.image v.viewType v.range s } : Rec).ctx.images.at i l m
      = if i = v.image.id ∧ v.range.Has l m then some s else r.ctx.images.at i l m := by
    intro i l m
    simp only [Ctx.setLayout, LayoutMap.at_setState, virtual_plain _ _ hd3]
  refine ⟨⟨?_, h.good.valid, ?_, h.good.pending⟩, ?_, h.pending⟩
  · intro i a l m ha
    have h0 := h.good.mirrors i a l m ha
    rw [hat]
    split
    · rename_i s' he
      split at he
      · rename_i hc
        obtain ⟨rfl, hl⟩ := hc
        cases he
        rw [hn l m hl] at h0
        exact h0.trans (h.honest _ a l m s ha (hk l m hl) (hn l m hl))
      · rw [he] at h0; exact h0
    · rename_i he
      split at he
      · simp at he
      · rw [he] at h0; exact h0
  · intro u hu
    unfold Uniform Untracked UniformState
    rcases hT.tidy.apart u v hu hv with hap | hsame
    · have hno : ∀ l m, u.range.Has l m → ¬ (u.image.id = v.image.id ∧ v.range.Has l m) := by
        rintro l m h1 ⟨h2, h3⟩
        rcases hap with h4 | h4
        · exact h4 h2
        · exact h4 l m ⟨h1, h3⟩
      rcases h.good.uniform u hu with h1 | ⟨t, h1, h2⟩
      · left; intro l m hl; rw [hat, if_neg (hno l m hl)]; exact h1 l m hl
      · right; refine ⟨t, ?_, h2⟩; intro l m hl; rw [hat, if_neg (hno l m hl)]; exact h1 l m hl
    · right
      refine ⟨s, ?_, hs⟩
      intro l m hl
      rw [hat, if_pos ⟨hsame.1, (hsame.2 l m).1 hl⟩]
  · refine honest_mono (r := r) ?_ h.honest
    intro i l m hx
    rw [hat] at hx
    split at hx
    · simp at hx
    · exact hx

/-- `getCurrentLayoutState` answers UNDEFINED or a state that the context now tracks for the whole view. -/
theorem inv_current (hT : TidyViews sepDS fmt V passes) {r : Rec} (h : Inv sepDS fmt V passes g0 G r)
    (hin : ∀ v, V v → Whole G.inputs v) (hfin : ∀ v, V v → Whole G.final.images v) {v : View}
    (hv : V v) (hne : v.range.NonEmpty) :
    Inv sepDS fmt V passes g0 G { r with ctx := (getCurrentLayoutState G r.ctx v).2 }
    ∧ ((getCurrentLayoutState G r.ctx v).1.layout = Layout.undefined
      ∨ ∃ s : LayoutState, s.layout ≠ Layout.undefined
        ∧ UniformState (getCurrentLayoutState G r.ctx v).2.images v.image.id v.range s) := by
  have hd3 := hT.tidy.view v hv
  unfold getCurrentLayoutState
  rcases h.good.uniform v hv with hu | ⟨s, hu, hs⟩
  · have e1 : (r.ctx.images.getState v.image v.viewType v.range).layout = Layout.undefined :=
      getState_plain_none hd3 hu
    simp only [e1, if_true]
    have hun : ∀ l k, v.range.Has l k → r.ctx.images.at v.image.id l k = none := hu
    have tracked : ∀ s : LayoutState, UniformState (r.ctx.setLayout v.image v.viewType v.range s).images v.image.id
        v.range s := by
      intro s l k hl
      simp only [Ctx.setLayout, LayoutMap.at_setState, virtual_plain _ _ hd3]
      rw [if_pos ⟨trivial, hl⟩]
    rcases hin v hv with hi | ⟨s, hs, hi⟩
    · have e2 : (G.inputs.getState v.image v.viewType v.range).layout = Layout.undefined :=
        getState_plain_none hd3 hi
      simp only [e2, ne_eq, not_true_eq_false, if_false, if_true]
      rcases hfin v hv with hf | ⟨s, hs, hf⟩
      · have e3 : (G.final.images.getState v.image v.viewType v.range).layout = Layout.undefined :=
          getState_plain_none hd3 hf
        simp only [e3, not_true_eq_false, if_false]
        exact ⟨h, Or.inl trivial⟩
      · have e3 := getState_plain_uniform hd3 hne hf
        simp only [e3, hs, not_false_eq_true, if_true]
        refine ⟨inv_setKnown hT h hv hun s hs ?_, Or.inr ⟨s, hs, tracked s⟩⟩
        intro l k hl
        unfold known
        rw [hun l k hl, hi l k hl, hf l k hl]
    · have e2 := getState_plain_uniform hd3 hne hi
      simp only [e2, ne_eq, hs, not_false_eq_true, if_true, if_false]
      refine ⟨inv_setKnown hT h hv hun s hs ?_, Or.inr ⟨s, hs, tracked s⟩⟩
      intro l k hl
      unfold known
      rw [hun l k hl, hi l k hl]
  · have e1 := getState_plain_uniform hd3 hne hu
    simp only [e1, hs, if_false]
    exact ⟨h, Or.inr ⟨s, hs, hu⟩⟩

/-- The GPU after a barrier whose initial layout is UNDEFINED or irrelevant. -/
theorem barrier_ready (hT : TidyViews sepDS fmt V passes) (en : Nat → Bool) {r : Rec}
    (h : Inv sepDS fmt V passes g0 G r) {v : View} (hv : V v) (hne : v.range.NonEmpty) (i : Nat) {w : LayoutState}
    (hw : w.layout ≠ Layout.undefined)
    (hi : i = Layout.undefined ∨ ∃ s : LayoutState, s.layout ≠ Layout.undefined
      ∧ UniformState r.ctx.images v.image.id v.range s) :
    Inv sepDS fmt V passes g0 G (r.viewBarrier ⟨sepDS, en⟩ v i w)
    ∧ InLayout fmt (execAll g0 (r.viewBarrier ⟨sepDS, en⟩ v i w).cmds) v w.layout
    ∧ (∃ s : LayoutState, s.layout ≠ Layout.undefined
        ∧ UniformState (r.viewBarrier ⟨sepDS, en⟩ v i w).ctx.images v.image.id v.range s) := by
  have e : r.viewBarrier ⟨sepDS, en⟩ v i w = r.viewBarrier ⟨sepDS, en⟩ v Layout.undefined w := by
    rcases hi with rfl | ⟨s, hs, hu⟩
    · rfl
    · exact barrier_tracked_initial _ r v (hT.tidy.view v hv) hne s hs hu _ _ w false
  rw [e]
  have hI := inv_barrier hT en h hv hw false
  refine ⟨hI, ?_, ?_⟩
  · intro a l m ha hl
    exact gpu_after_barrier hT.tidy en h.good hv hw false a l m ha hl
  · rcases hI.good.uniform v hv with hu | ⟨s, hu, hs⟩
    · exfalso
      have ho := ordinary_of_tidy hT.tidy hv Layout.undefined hw false en
      have := (barrier_tracks_wanted_partial ⟨sepDS, en⟩ r (viewReq v Layout.undefined w false) v.range
        (designates_plain ho.view) hne hw (by
          rcases h.good.uniform v hv with h1 | h1
          · exact Or.inr ⟨h1, fun e => hw e.symm⟩
          · exact Or.inl h1)).1
      obtain ⟨l, m, hl⟩ := v.range.nonEmpty_iff.1 hne
      obtain ⟨t, ht, -⟩ := this l m hl
      have hx := hu l m hl
      rw [viewBarrier_request] at hx
      simp only [viewReq] at ht hx
      rw [ht] at hx
      simp at hx
    · exact ⟨s, hs, hu⟩

theorem view_mem {a : ImgAttach} {index : Nat} {v : View} (h : a.view index = some v) : v ∈ a.views := by
  unfold ImgAttach.view at h
  split at h
  · exact List.mem_of_mem_head? h
  · exact List.mem_of_getElem? h

/-- The view is in the layout, on the GPU, and something is tracked of all of it. -/
def Arrived (fmt : Nat → Nat) (g0 : Layouts) (r : Rec) (v : View) (layout : Nat) : Prop :=
  InLayout fmt (execAll g0 r.cmds) v layout ∧ ∀ l m, v.range.Has l m → r.ctx.images.at v.image.id l m ≠ none

theorem tracked_of_uniform {m : LayoutMap} {v : View} (h : ∃ s : LayoutState, s.layout ≠ Layout.undefined
    ∧ UniformState m v.image.id v.range s) : ∀ l k, v.range.Has l k → m.at v.image.id l k ≠ none := by
  obtain ⟨s, -, h⟩ := h
  intro l k hl
  rw [h l k hl]
  simp

theorem mono_current (G : GraphSt) (r : Rec) (v : View) : Mono r { r with ctx := (getCurrentLayoutState G r.ctx v).2 } := by
  have hs : ∀ s, Mono r { r with ctx := r.ctx.setLayout v.image v.viewType v.range s } := by
    intro s i l m h
    simp only [Ctx.setLayout, LayoutMap.at_setState] at h
    split at h
    · simp at h
    · exact h
  unfold getCurrentLayoutState
  simp only
  (repeat' split) <;> first | exact hs _ | exact mono_refl r

/-- One image attachment. -/
theorem recordImage_spec (hT : TidyViews sepDS fmt V passes) (en : Nat → Bool)
    (hin : ∀ v, V v → Whole G.inputs v) (hfin : ∀ v, V v → Whole G.final.images v) {p : RunPass}
    (hp : p ∈ passes) {a : Attachment} (ha : a ∈ p.images) {index : Nat} {r r' : Rec}
    (h : Inv sepDS fmt V passes g0 G r) (e : recordImage ⟨sepDS, en⟩ G index r a = some r') :
    Inv sepDS fmt V passes g0 G r'
    ∧ (moved a = true → ∀ v, a.img.view index = some v → Arrived fmt g0 r' v (a.getImageLayout sepDS))
    ∧ (∀ x, AttachedTo passes x → (∀ v, a.img.view index = some v → View.Apart x v) → Untouched g0 x r r')
    ∧ Mono r r' := by
  unfold recordImage at e
  cases hvw : a.img.view index with
  | none => rw [hvw] at e; simp at e
  | some v =>
    rw [hvw] at e
    have hatt : AttachedTo passes v := ⟨p, hp, a, ha, view_mem hvw⟩
    obtain ⟨hv, hne⟩ := hT.attached v hatt
    have h1 := inv_runImplicit hT en h v
    have mo1 := mono_runImplicit ⟨sepDS, en⟩ r v
    have hun1 : ∀ x, AttachedTo passes x → (∀ u, some v = some u → View.Apart x u) →
        Untouched g0 x r (r.runImplicit ⟨sepDS, en⟩ v) :=
      fun x hx hap => untouched_runImplicit hT en h hv hx (hap v rfl)
    simp only at e
    generalize r.runImplicit ⟨sepDS, en⟩ v = r1 at e h1 hun1 mo1
    by_cases hm : moved a = true
    · rw [if_pos hm] at e
      have hlay := hT.layouts p hp a ha hm
      -- the state the attachment starts from
      have hcur : ∃ cur : LayoutState × Ctx,
          cur = (if !a.isInput then (makeLayoutState Layout.undefined, r1.ctx) else getCurrentLayoutState G r1.ctx v)
          ∧ Inv sepDS fmt V passes g0 G { r1 with ctx := cur.2 }
          ∧ Mono r1 { r1 with ctx := cur.2 }
          ∧ (cur.1.layout = Layout.undefined ∨ ∃ s : LayoutState, s.layout ≠ Layout.undefined
              ∧ UniformState cur.2.images v.image.id v.range s) := by
        refine ⟨_, rfl, ?_⟩
        by_cases hi : a.isInput = true
        · simp only [hi, Bool.not_true, Bool.false_eq_true, if_false]
          obtain ⟨c1, c2⟩ := inv_current hT h1 hin hfin hv hne
          exact ⟨c1, mono_current G r1 v, c2⟩
        · simp only [Bool.not_eq_true] at hi
          simp only [hi, Bool.not_false, if_true]
          exact ⟨h1, mono_refl r1, Or.inl rfl⟩
      obtain ⟨cur, ecur, h2, mo2, hst⟩ := hcur
      rw [← ecur] at e
      have hun2 : ∀ x, Untouched g0 x r1 { r1 with ctx := cur.2 } := fun x a l m _ => rfl
      generalize hr2 : ({ r1 with ctx := cur.2 } : Rec) = r2 at e h2 hun2 mo2
      have hst2 : cur.1.layout = Layout.undefined ∨ ∃ s : LayoutState, s.layout ≠ Layout.undefined
              ∧ UniformState r2.ctx.images v.image.id v.range s := by rw [← hr2]; exact hst
      by_cases hc : a.isClearableImage = true
      · rw [if_pos hc] at e
        simp only [Option.some.injEq] at e
        subst e
        obtain ⟨i1, i2, i3⟩ := barrier_ready (w := clearState) hT en h2 hv hne cur.1.layout (by decide) hst2
        have i4 := inv_emit i1 (.clearImage (isColourFormat v.format) v.image.id Layout.transferDst v.range 0)
          (fun _ => rfl) (by
            intro a l m hsel
            exact i2 a l m (by
              rw [← hT.tidy.format v hv]; exact aspect_of_whole (hT.tidy.aspect v hv) hsel.1) hsel.2)
        obtain ⟨j1, j2, j3⟩ := barrier_ready (w := makeLayoutState (a.getImageLayout sepDS)) hT en i4 hv hne
          Layout.transferDst hlay (Or.inr i3)
        refine ⟨j1, fun _ u hu => by cases hu; exact ⟨j2, tracked_of_uniform j3⟩, ?_, mono_trans _ _ _ mo1
          (mono_trans _ _ _ mo2 (mono_trans _ _ _ (mono_barrier _ _ _ _ _ _)
            (mono_trans _ (Rec.emit _ _) _ (fun _ _ _ h => h) (mono_barrier _ _ _ _ _ _))))⟩
        intro x hx hap
        have hxv := hap v rfl
        exact untouched_trans x _ _ _ (hun1 x hx hap) (untouched_trans x _ _ _ (hun2 x) (untouched_trans x _ _ _
          (fun a l m hl => gpu_frame_barrier en g0 _ v x _ _ _ hxv a l m hl) (untouched_trans x _ _ _
          (untouched_emit x _ _ fun _ => rfl) (fun a l m hl => gpu_frame_barrier en g0 _ v x _ _ _ hxv a l m hl))))
      · rw [if_neg hc] at e
        simp only [Option.some.injEq] at e
        subst e
        obtain ⟨j1, j2, j3⟩ := barrier_ready (w := makeLayoutState (a.getImageLayout sepDS)) hT en h2 hv hne
          cur.1.layout hlay hst2
        refine ⟨j1, fun _ u hu => by cases hu; exact ⟨j2, tracked_of_uniform j3⟩, ?_, mono_trans _ _ _ mo1
          (mono_trans _ _ _ mo2 (mono_barrier _ _ _ _ _ _))⟩
        intro x hx hap
        have hxv := hap v rfl
        exact untouched_trans x _ _ _ (hun1 x hx hap) (untouched_trans x _ _ _ (hun2 x)
          (fun a l m hl => gpu_frame_barrier en g0 _ v x _ _ _ hxv a l m hl))
    · rw [if_neg hm] at e
      simp only [Option.some.injEq] at e
      subst e
      exact ⟨h1, fun hx => absurd hx hm, hun1, mo1⟩

/-- All image attachments. -/
theorem recordImages_spec (hT : TidyViews sepDS fmt V passes) (en : Nat → Bool)
    (hin : ∀ v, V v → Whole G.inputs v) (hfin : ∀ v, V v → Whole G.final.images v) {p : RunPass}
    (hp : p ∈ passes) {index : Nat} : ∀ (as : List Attachment), (∀ a ∈ as, a ∈ p.images) →
    as.Pairwise (fun a b => ∀ v w, a.img.view index = some v → b.img.view index = some w → View.Apart v w) →
    ∀ {r r' : Rec}, Inv sepDS fmt V passes g0 G r → foldOpt (recordImage ⟨sepDS, en⟩ G index) r as = some r' →
    Inv sepDS fmt V passes g0 G r'
    ∧ (∀ a ∈ as, moved a = true → ∀ v, a.img.view index = some v → Arrived fmt g0 r' v (a.getImageLayout sepDS))
    ∧ (∀ x, AttachedTo passes x → (∀ a ∈ as, ∀ v, a.img.view index = some v → View.Apart x v) →
        Untouched g0 x r r')
    ∧ Mono r r' := by
  intro as
  induction as with
  | nil =>
    intro _ _ r r' h e
    simp only [foldOpt, Option.some.injEq] at e
    subst e
    exact ⟨h, by simp, fun _ _ _ _ _ _ _ => rfl, mono_refl r⟩
  | cons a as ih =>
    intro hsub hpw r r' h e
    unfold foldOpt at e
    cases e1 : recordImage ⟨sepDS, en⟩ G index r a with
    | none => rw [e1] at e; simp at e
    | some r1 =>
      rw [e1] at e
      obtain ⟨i1, i2, i3, mo1⟩ := recordImage_spec hT en hin hfin hp (hsub a (by simp)) h e1
      rw [List.pairwise_cons] at hpw
      obtain ⟨j1, j2, j3, mo2⟩ := ih (fun b hb => hsub b (by simp [hb])) hpw.2 i1 e
      refine ⟨j1, ?_, ?_, mono_trans _ _ _ mo1 mo2⟩
      · intro b hb hm v hvw
        rcases List.mem_cons.1 hb with rfl | hb
        · have hatt : AttachedTo passes v := ⟨p, hp, b, hsub b (by simp), view_mem hvw⟩
          refine ⟨?_, fun l m hl hn => (i2 hm v hvw).2 l m hl (mo2 _ _ _ hn)⟩
          intro asp l m ha hl
          rw [j3 v hatt (fun c hc w hw => hpw.1 c hc v w hvw hw) asp l m hl]
          exact (i2 hm v hvw).1 asp l m ha hl
        · exact j2 b hb hm v hvw
      · intro x hx hap
        exact untouched_trans x _ _ _ (i3 x hx fun v hv => hap a (by simp) v hv)
          (j3 x hx fun b hb => hap b (by simp [hb]))

theorem inv_bufferBarrier {r : Rec} (h : Inv sepDS fmt V passes g0 G r) (b o s : Nat) (i w : AccessState)
    (f : Bool) : Inv sepDS fmt V passes g0 G (r.bufferBarrier b o s i w f)
    ∧ (∀ g, execAll g (r.bufferBarrier b o s i w f).cmds = execAll g r.cmds)
    ∧ (r.bufferBarrier b o s i w f).ctx.images = r.ctx.images := by
  unfold Rec.bufferBarrier
  simp only
  generalize (if (r.ctx.getAccess b).stage = Stage.bottomOfPipe then i else r.ctx.getAccess b) = src
  split
  · have := inv_emit h (.bufferBarrier b o s src w) (fun _ => rfl) trivial
    refine ⟨⟨⟨this.good.mirrors, this.good.valid, this.good.uniform, this.good.pending⟩, this.honest,
      this.pending⟩, ?_, rfl⟩
    intro g
    show execAll g (r.cmds ++ [_]) = _
    rw [execAll_snoc]; rfl
  · exact ⟨h, fun _ => rfl, rfl⟩

theorem recordBuffers_spec (compute : Bool) (index : Nat) : ∀ (as : List Attachment) {r r' : Rec},
    Inv sepDS fmt V passes g0 G r → foldOpt (recordBuffer compute index) r as = some r' →
    Inv sepDS fmt V passes g0 G r' ∧ (∀ g, execAll g r'.cmds = execAll g r.cmds)
    ∧ r'.ctx.images = r.ctx.images := by
  intro as
  induction as with
  | nil =>
    intro r r' h e
    simp only [foldOpt, Option.some.injEq] at e
    subst e
    exact ⟨h, fun _ => rfl, rfl⟩
  | cons a as ih =>
    intro r r' h e
    unfold foldOpt at e
    cases e1 : recordBuffer compute index r a with
    | none => rw [e1] at e; simp at e
    | some r1 =>
      rw [e1] at e
      have step : Inv sepDS fmt V passes g0 G r1 ∧ (∀ g, execAll g r1.cmds = execAll g r.cmds)
          ∧ r1.ctx.images = r.ctx.images := by
        unfold recordBuffer at e1
        split at e1
        · split at e1
          · simp at e1
          · simp only at e1
            split at e1
            · simp only [Option.some.injEq] at e1
              subst e1
              rename_i b _ _
              obtain ⟨i1, i2, i2'⟩ := inv_bufferBarrier h b a.buf.offset a.buf.size (r.ctx.getAccess b)
                ⟨Access.transferWrite, Stage.transfer⟩ false
              have i3 := inv_emit i1 (.fillBuffer b
                (if a.buf.offset = 0 then 0 else getAlignedSize a.buf.offset 4)
                (if a.buf.size = wholeSize then wholeSize else getAlignedSize a.buf.size 4)) (fun _ => rfl) trivial
              obtain ⟨i4, i5, i5'⟩ := inv_bufferBarrier i3 b a.buf.offset a.buf.size
                ⟨Access.transferWrite, Stage.transfer⟩ ⟨a.getAccessMask, a.getPipelineStageFlags compute⟩ false
              refine ⟨i4, fun g => (i5 g).trans ?_, i5'.trans i2'⟩
              rw [← i2 g]
              show execAll g (_ ++ [_]) = _
              rw [execAll_snoc]; rfl
            · simp only [Option.some.injEq] at e1
              subst e1
              exact inv_bufferBarrier h _ _ _ _ _ false
        · simp only [Option.some.injEq] at e1
          subst e1
          exact ⟨h, fun _ => rfl, rfl⟩
      obtain ⟨j1, j2, j3⟩ := ih step.1 e
      exact ⟨j1, fun g => (j2 g).trans (step.2.1 g), j3.trans step.2.2⟩

/-- The images the pass declares (but the attachments it draws to) are in the layouts it declares,
and tracked. -/
def ImagesReady (sepDS : Bool) (fmt : Nat → Nat) (g0 : Layouts) (p : RunPass) (index : Nat) (r : Rec) : Prop :=
  ∀ a ∈ p.images, moved a = true → ∀ v, a.img.view index = some v → Arrived fmt g0 r v (a.getImageLayout sepDS)

/-- Everything before the body. -/
theorem prepare_spec (hT : TidyViews sepDS fmt V passes) (en : Nat → Bool)
    (hin : ∀ v, V v → Whole G.inputs v) (hfin : ∀ v, V v → Whole G.final.images v) {p : RunPass}
    (hp : p ∈ passes) {index : Nat} {r r' : Rec} (h : Inv sepDS fmt V passes g0 G r)
    (e : prepare ⟨sepDS, en⟩ G p index r = some r') :
    Inv sepDS fmt V passes g0 G r'
    ∧ ImagesReady sepDS fmt g0 p index r' := by
  unfold prepare at e
  cases e1 : foldOpt (recordImage ⟨sepDS, en⟩ G index) r p.images with
  | none => rw [e1] at e; simp at e
  | some r1 =>
    rw [e1] at e
    obtain ⟨i1, i2, -⟩ := recordImages_spec hT en hin hfin hp p.images (fun _ h => h) (hT.apart p hp index) h e1
    obtain ⟨j1, j2, j3⟩ := recordBuffers_spec p.compute index p.buffers i1 e
    refine ⟨j1, ?_⟩
    intro a ha hm v hv
    unfold Arrived
    rw [j2, j3]
    exact i2 a ha hm v hv

theorem inv_perform (hT : TidyViews sepDS fmt V passes) {r : Rec} (h : Inv sepDS fmt V passes g0 G r)
    (calls : List Call) (hc : ∀ c ∈ calls, BodyCall V passes c) :
    Inv sepDS fmt V passes g0 G (performAll sepDS r calls) := by
  induction calls generalizing r with
  | nil => exact h
  | cons c cs ih =>
    refine ih (r := perform sepDS r c) ?_ fun x hx => hc x (by simp [hx])
    have hcc := hc c (by simp)
    cases c with
    | barrier v i w f =>
      obtain ⟨h1, h2, rfl⟩ := hcc
      exact inv_barrier hT _ h h1 h2 f
    | buffer q => exact (inv_bufferBarrier h _ _ _ _ _ _).1
    | register t =>
      refine ⟨⟨h.good.mirrors, h.good.valid, h.good.uniform, ?_⟩, h.honest, ?_⟩
      · intro u hu
        simp [perform, Rec.register] at hu
        rcases hu with hu | rfl
        · exact h.good.pending u hu
        · exact hcc.2.1
      · intro u hu
        simp [perform, Rec.register] at hu
        rcases hu with hu | rfl
        · exact h.pending u hu
        · exact ⟨hcc.1, hcc.2.2⟩
    | use v en => exact inv_runImplicit hT en h v
    | work k => exact inv_emit h (.work k) (fun _ => rfl) trivial

theorem inv_registerAll (hT : TidyViews sepDS fmt V passes) {p : RunPass} (hp : p ∈ passes) {r : Rec}
    (h : Inv sepDS fmt V passes g0 G r) : Inv sepDS fmt V passes g0 G (registerAll p r) := by
  have : ∀ (l : List (View × Action)), (∀ va ∈ l, va ∈ p.implicitActions) → ∀ r : Rec,
      Inv sepDS fmt V passes g0 G r →
      Inv sepDS fmt V passes g0 G (l.foldl (fun r va => r.register ⟨p.id, va.1, va.2⟩) r) := by
    intro l
    induction l with
    | nil => intro _ r h; exact h
    | cons va l ih =>
      intro hs r h
      refine ih (fun x hx => hs x (by simp [hx])) _ ?_
      have ha := hT.actions p hp va (hs va (by simp))
      exact inv_perform hT h [.register ⟨p.id, va.1, va.2⟩] (by intro c hc; simp at hc; subst hc; exact ha)
  exact this _ (fun _ h => h) r h

/-- Announcing states changes nothing the invariant speaks of. -/
theorem inv_ctx {r : Rec} (h : Inv sepDS fmt V passes g0 G r) (c : Ctx) (h1 : c.images = r.ctx.images)
    (h2 : c.implicit = r.ctx.implicit) : Inv sepDS fmt V passes g0 G { r with ctx := c } := by
  refine ⟨⟨?_, h.good.valid, ?_, ?_⟩, ?_, ?_⟩
  · show Mirrors fmt g0 c.images _
    rw [h1]; exact h.good.mirrors
  · intro v hv
    show Uniform c.images _
    rw [h1]; exact h.good.uniform v hv
  · show ∀ t ∈ c.implicit, _
    rw [h2]; exact h.good.pending
  · intro i a l m s
    simp only [known, h1]
    exact h.honest i a l m s
  · show ∀ t ∈ c.implicit, _
    rw [h2]; exact h.pending

theorem announce_keeps (env : Env) (G : GraphSt) (p : RunPass) (next : List RunPass) (c : Ctx) :
    (announce env G p next c).images = c.images ∧ (announce env G p next c).implicit = c.implicit := by
  unfold announce
  split <;> exact ⟨rfl, rfl⟩

theorem calls_keep (hT : TidyGraph sepDS fmt V passes) {p : RunPass} (hp : p ∈ passes) (index : Nat) (r : Rec)
    (h : Inv sepDS fmt V passes g0 G r) : Inv sepDS fmt V passes g0 G (p.body index r) := by
  obtain ⟨calls, hc, eb⟩ := hT.bodies p hp index r
  rw [eb]
  exact inv_perform hT.toTidyViews h calls hc

theorem inv_recordInto (hT : TidyViews sepDS fmt V passes) (en : Nat → Bool)
    (hin : ∀ v, V v → Whole G.inputs v) (hfin : ∀ v, V v → Whole G.final.images v) {p : RunPass}
    (hp : p ∈ passes) {index : Nat} {f f' : Frame} (h : Inv sepDS fmt V passes g0 G f.recd)
    (hB : en p.id = true → ∀ r, prepare ⟨sepDS, en⟩ G p index f.recd = some r → Inv sepDS fmt V passes g0 G r →
      ImagesReady sepDS fmt g0 p index r → Inv sepDS fmt V passes g0 G (p.body index r))
    (e : recordInto ⟨sepDS, en⟩ G p index f = some f') : Inv sepDS fmt V passes g0 G f'.recd := by
  unfold recordInto at e
  split at e
  · split at e
    · simp only at e
      have hr : (if (!f.initialised p.id index) = true then f.initialise p index else f).recd = f.recd := by
        split <;> rfl
      rw [hr] at e
      cases e1 : prepare ⟨sepDS, en⟩ G p index f.recd with
      | none => rw [e1] at e; simp at e
      | some r =>
        rw [e1] at e
        simp only [Option.some.injEq] at e
        subst e
        obtain ⟨i1, i2⟩ := prepare_spec hT en hin hfin hp h e1
        exact inv_registerAll hT hp (hB (by assumption) r e1 i1 i2)
    · simp at e
  · simp only [Option.some.injEq] at e
    subst e
    exact inv_registerAll hT hp h

/-- While the passes are recorded from `f`, the body of `q` is entered with the recording `r`. -/
def Enters (env : Env) (G : GraphSt) (index : Nat → Nat) : List RunPass → Frame → RunPass → Rec → Prop
  | [], _, _, _ => False
  | p :: next, f, q, r =>
    let f : Frame := { f with recd := { f.recd with ctx := announce env G p next f.recd.ctx } }
    (q = p ∧ env.enabled p.id = true ∧ prepare env G p (index p.id) f.recd = some r)
    ∨ ∃ f', recordInto env G p (index p.id) f = some f' ∧ Enters env G index next f' q r

theorem enters_mem {env : Env} {G : GraphSt} {index : Nat → Nat} {q : RunPass} {r : Rec} :
    ∀ {ps : List RunPass} {f : Frame}, Enters env G index ps f q r → q ∈ ps
  | [], _, h => absurd h (by simp [Enters])
  | p :: next, f, h => by
    rcases h with ⟨rfl, -, -⟩ | ⟨f', -, h⟩
    · simp
    · exact List.mem_cons_of_mem _ (enters_mem h)

/-- Bodies keep the invariant whenever they are entered, their images being ready. -/
def BodiesKeep (sepDS : Bool) (fmt : Nat → Nat) (V : View → Prop) (passes : List RunPass) (g0 : Layouts)
    (G : GraphSt) (en : Nat → Bool) (index : Nat → Nat) (ps : List RunPass) (f : Frame) : Prop :=
  ∀ q r, Enters ⟨sepDS, en⟩ G index ps f q r → Inv sepDS fmt V passes g0 G r →
    ImagesReady sepDS fmt g0 q (index q.id) r → Inv sepDS fmt V passes g0 G (q.body (index q.id) r)

theorem loop_spec (hT : TidyViews sepDS fmt V passes) (en : Nat → Bool)
    (index : Nat → Nat)
    (hin : ∀ v, V v → Whole G.inputs v) (hfin : ∀ v, V v → Whole G.final.images v) :
    ∀ (ps : List RunPass), (∀ p ∈ ps, p ∈ passes) → ∀ (f : Frame), Inv sepDS fmt V passes g0 G f.recd →
    BodiesKeep sepDS fmt V passes g0 G en index ps f →
    (∀ f', recordLoop ⟨sepDS, en⟩ G index ps f = some f' → Inv sepDS fmt V passes g0 G f'.recd)
    ∧ (∀ q r, Enters ⟨sepDS, en⟩ G index ps f q r → Inv sepDS fmt V passes g0 G r
      ∧ ImagesReady sepDS fmt g0 q (index q.id) r) := by
  intro ps
  induction ps with
  | nil =>
    intro _ f h _
    refine ⟨?_, fun q r he => absurd he (by simp [Enters])⟩
    intro f' e
    simp only [recordLoop, Option.some.injEq] at e
    subst e; exact h
  | cons p next ih =>
    intro hs f h hB
    have hp := hs p (by simp)
    have hk := announce_keeps ⟨sepDS, en⟩ G p next f.recd.ctx
    have h1 := inv_ctx h _ hk.1 hk.2
    have ih' := ih fun x hx => hs x (by simp [hx])
    refine ⟨?_, ?_⟩
    · intro f' e
      unfold recordLoop at e
      simp only at e
      split at e
      · simp at e
      · rename_i f1 e1
        exact (ih' f1 (inv_recordInto hT en hin hfin hp (f := { f with recd := _ }) h1
          (fun hen r er hr hd => hB p r (Or.inl ⟨rfl, hen, er⟩) hr hd) e1)
          fun q r he => hB q r (Or.inr ⟨f1, e1, he⟩)).1 f' e
    · rintro q r (⟨rfl, -, e⟩ | ⟨f1, e1, he⟩)
      · exact prepare_spec hT en hin hfin hp h1 e
      · exact (ih' f1 (inv_recordInto hT en hin hfin hp (f := { f with recd := _ }) h1
          (fun hen r er hr hd => hB p r (Or.inl ⟨rfl, hen, er⟩) hr hd) e1)
          fun q r he => hB q r (Or.inr ⟨f1, e1, he⟩)).2 q r he

theorem startCtx_implicit (deps : List Ctx) : (startCtx deps).implicit = [] := by
  unfold startCtx
  have : ∀ c : Ctx, c.implicit = [] → (deps.foldl Ctx.addStates c).implicit = [] := by
    induction deps with
    | nil => intro c h; exact h
    | cons d ds ih => intro c h; exact ih _ h
  exact this _ rfl

theorem firstAnnounce_keeps (s : Bool) (ps : List RunPass) (c : Ctx) :
    (firstAnnounce s ps c).images = c.images ∧ (firstAnnounce s ps c).implicit = c.implicit := by
  unfold firstAnnounce
  split <;> exact ⟨rfl, rfl⟩

theorem inv_start (deps : List Ctx) (hH : Honest fmt V g0 (startCtx deps) G) (c : Ctx)
    (h1 : c.images = (startCtx deps).images) (h2 : c.implicit = (startCtx deps).implicit) :
    Inv sepDS fmt V passes g0 G ⟨c, []⟩ := by
  refine ⟨⟨?_, trivial, ?_, ?_⟩, ?_, ?_⟩
  · intro i a l m ha
    show match c.images.at i l m with | some s => g0 i a l m = s.layout | none => g0 i a l m = g0 i a l m
    cases hc : c.images.at i l m with
    | none => rfl
    | some s => exact hH.true' i a l m s ha (by unfold known; rw [← h1, hc])
  · intro v hv
    show Uniform c.images _
    rw [h1]
    rcases hH.start v hv with h | ⟨s, hs, h⟩
    · exact Or.inl h
    · exact Or.inr ⟨s, h, hs⟩
  · intro t ht
    rw [show (Rec.mk c []).ctx.implicit = c.implicit from rfl, h2, startCtx_implicit] at ht
    simp at ht
  · intro i a l m s ha hk _
    refine hH.true' i a l m s ha ?_
    unfold known at hk ⊢
    simp only at hk
    rw [h1] at hk
    exact hk
  · intro t ht
    rw [show (Rec.mk c []).ctx.implicit = c.implicit from rfl, h2, startCtx_implicit] at ht
    simp at ht

/-- The recording a frame starts with. -/
def frameStart (sepDS : Bool) (deps : List Ctx) (passes : List RunPass) (ini : Nat → Nat → Bool)
    (log : List Event) : Frame := ⟨⟨firstAnnounce sepDS passes (startCtx deps), []⟩, ini, log⟩

/-- `passes_start_ready_partial` for any bodies that keep the invariant. -/
theorem ready_of_bodies (hT : TidyViews sepDS fmt V passes) (en : Nat → Bool) (index : Nat → Nat)
    (deps : List Ctx) (hH : Honest fmt V g0 (startCtx deps) G) (ini : Nat → Nat → Bool) (log : List Event)
    (hB : BodiesKeep sepDS fmt V passes g0 G en index passes (frameStart sepDS deps passes ini log))
    (q : RunPass) (r : Rec)
    (he : Enters ⟨sepDS, en⟩ G index passes (frameStart sepDS deps passes ini log) q r) :
    Inv sepDS fmt V passes g0 G r ∧ ImagesReady sepDS fmt g0 q (index q.id) r := by
  have hk := firstAnnounce_keeps sepDS passes (startCtx deps)
  exact (loop_spec hT en index hH.inputs hH.final passes (fun _ h => h)
    (frameStart sepDS deps passes ini log) (inv_start deps hH _ hk.1 hk.2) hB).2 q r he

/-- C47 (partial: tidy graphs). Whatever passes are enabled and whatever their indices, every pass body starts
with every image its attachments declare (sampled, storage, transfer, implicit) wholly in the layout they
declare, on the GPU; and everything recorded up to then is valid. -/
theorem passes_start_ready_partial (hT : TidyGraph sepDS fmt V passes) (en : Nat → Bool) (index : Nat → Nat)
    (deps : List Ctx) (hH : Honest fmt V g0 (startCtx deps) G) (ini : Nat → Nat → Bool) (log : List Event)
    (q : RunPass) (r : Rec)
    (he : Enters ⟨sepDS, en⟩ G index passes (frameStart sepDS deps passes ini log) q r) :
    StreamValid g0 r.cmds ∧ ∀ a ∈ q.images, moved a = true → ∀ v, a.img.view (index q.id) = some v →
      InLayout fmt (execAll g0 r.cmds) v (a.getImageLayout sepDS) := by
  have := ready_of_bodies hT.toTidyViews en index deps hH ini log
    (fun q r he h _ => calls_keep hT (enters_mem he) _ r h) q r he
  exact ⟨this.1.good.valid, fun a ha hm v hv => (this.2 a ha hm v hv).1⟩

/-- `graph_stream_valid_partial` for any bodies that keep the invariant. -/
theorem valid_of_bodies (hT : TidyViews sepDS fmt V passes) (en : Nat → Bool) (index : Nat → Nat)
    (deps : List Ctx) (hH : Honest fmt V g0 (startCtx deps) G) (ini : Nat → Nat → Bool) (log : List Event)
    (hB : BodiesKeep sepDS fmt V passes g0 G en index passes (frameStart sepDS deps passes ini log))
    (G' : GraphSt) (f : Frame) (e : record ⟨sepDS, en⟩ G deps index passes ini log = some (G', f)) :
    StreamValid g0 f.recd.cmds
    ∧ (∀ i a l m s, HasAspect (fmt i) a → G'.final.images.at i l m = some s →
        execAll g0 f.recd.cmds i a l m = s.layout)
    ∧ (∀ v, V v → Whole G'.final.images v) ∧ G'.inputs = G.inputs := by
  unfold record at e
  simp only at e
  split at e
  · simp at e
  · rename_i f1 e1
    simp only [Option.some.injEq, Prod.mk.injEq] at e
    obtain ⟨rfl, rfl⟩ := e
    have hk := firstAnnounce_keeps sepDS passes (startCtx deps)
    have := (loop_spec hT en index hH.inputs hH.final passes (fun _ h => h)
      (frameStart sepDS deps passes ini log) (inv_start deps hH _ hk.1 hk.2) hB).1 f1 e1
    refine ⟨this.good.valid, ?_, ?_, rfl⟩
    · intro i a l m s ha hs
      have h := this.good.mirrors i a l m ha
      simp only at hs
      rw [hs] at h
      exact h
    · intro v hv
      rcases this.good.uniform v hv with h | ⟨s, h, hs⟩
      · exact Or.inl h
      · exact Or.inr ⟨s, hs, h⟩

/-- C14 for whole graphs (partial: tidy graphs): the command stream `RunnableGraph::record` produces is valid, and
what the graph remembers afterwards is true of the GPU once the stream executed. -/
theorem graph_stream_valid_partial (hT : TidyGraph sepDS fmt V passes) (en : Nat → Bool) (index : Nat → Nat)
    (deps : List Ctx) (hH : Honest fmt V g0 (startCtx deps) G) (ini : Nat → Nat → Bool) (log : List Event)
    (G' : GraphSt) (f : Frame) (e : record ⟨sepDS, en⟩ G deps index passes ini log = some (G', f)) :
    StreamValid g0 f.recd.cmds
    ∧ (∀ i a l m s, HasAspect (fmt i) a → G'.final.images.at i l m = some s →
        execAll g0 f.recd.cmds i a l m = s.layout)
    ∧ (∀ v, V v → Whole G'.final.images v) ∧ G'.inputs = G.inputs := by
  exact valid_of_bodies hT.toTidyViews en index deps hH ini log
    (fun q r he h _ => calls_keep hT (enters_mem he) _ r h) G' f e

/-- One execution of the graph: which passes are enabled, and the index of each. -/
structure Exec where
  enabled : Nat → Bool
  index : Nat → Nat

/-- What the outside does between two executions: the declared inputs are put back in their declared layouts,
everything else stays as it is. -/
def Restored (G : GraphSt) (g g' : Layouts) : Prop :=
  ∀ i a l m, match G.inputs.at i l m with
    | some s => g' i a l m = s.layout
    | none => g' i a l m = g i a l m

/-- The graph executes several times in a row, from GPU layouts `g`; the streams recorded, each with the
layouts it started from. -/
inductive Executions (sepDS : Bool) (passes : List RunPass) :
    GraphSt → (Nat → Nat → Bool) → List Event → Layouts → List Exec → List (Layouts × List Cmd) → Prop
  | done (G ini log g) : Executions sepDS passes G ini log g [] []
  | step {G ini log g g' x xs G' f out} (hg : Restored G g g')
      (e : record ⟨sepDS, x.enabled⟩ G [] x.index passes ini log = some (G', f))
      (rest : Executions sepDS passes G' f.initialised f.log (execAll g' f.recd.cmds) xs out) :
      Executions sepDS passes G ini log g (x :: xs) ((g', f.recd.cmds) :: out)

/-- What the graph can know when a frame starts is true, if what it remembered was and only the declared inputs were touched. -/
theorem honest_restored {g g' : Layouts} (hin : ∀ v, V v → Whole G.inputs v) (hfin : ∀ v, V v → Whole G.final.images v)
    (htrue : ∀ i a l m s, HasAspect (fmt i) a → G.final.images.at i l m = some s → g i a l m = s.layout)
    (hg : Restored G g g') : Honest fmt V g' (startCtx []) G := by
  refine ⟨?_, fun v _ => Or.inl fun l k _ => rfl, hin, hfin⟩
  intro i a l m s ha hk
  unfold known at hk
  have hr := hg i a l m
  simp only [startCtx, List.foldl_nil, Ctx.new, LayoutMap.empty, LayoutMap.at] at hk
  change (match G.inputs.at i l m with | some s => some s | none => G.final.images.at i l m) = some s at hk
  cases hi : G.inputs.at i l m with
  | some t =>
    rw [hi] at hk hr
    simp only [Option.some.injEq] at hk
    subst hk
    exact hr
  | none =>
    rw [hi] at hk hr
    exact hr.trans (htrue i a l m s ha hk)

/-- C14/C47 over any number of executions (partial: tidy graphs without dependencies on other graphs). If the
declared inputs are known view by view and the graph was never executed, every stream recorded by every execution,
with passes enabled and disabled in any way between them, is valid. -/
theorem executions_valid_partial (hT : TidyGraph sepDS fmt V passes) (xs : List Exec) :
    ∀ (G : GraphSt) (ini : Nat → Nat → Bool) (log : List Event) (g : Layouts) (out : List (Layouts × List Cmd)),
    (∀ v, V v → Whole G.inputs v) → (∀ v, V v → Whole G.final.images v) →
    (∀ i a l m s, HasAspect (fmt i) a → G.final.images.at i l m = some s → g i a l m = s.layout) →
    Executions sepDS passes G ini log g xs out → ∀ o ∈ out, StreamValid o.1 o.2 := by
  induction xs with
  | nil =>
    intro G ini log g out _ _ _ h o ho
    cases h
    simp at ho
  | cons x xs ih =>
    intro G ini log g out hin hfin htrue h o ho
    cases h with
    | step hg e rest =>
      rename_i g' G' f out'
      have hH : Honest fmt V g' (startCtx []) G := honest_restored hin hfin htrue hg
      obtain ⟨h1, h2, h3, h4⟩ := graph_stream_valid_partial hT x.enabled x.index [] hH ini log G' f e
      rcases List.mem_cons.1 ho with rfl | ho
      · exact h1
      · exact ih G' f.initialised f.log _ out' (by rw [h4]; exact hin) h3 h2 rest o ho

/-! ### Non-vacuity -/

def xImg : Image := ⟨1, 37, 1, 1, 64, 64, 1⟩
def xView : View := ⟨11, xImg, .d2, 37, ⟨Aspect.color, 0, 1, 0, 1⟩⟩
/-- A compute pass clearing and writing a storage image, skipped in favour of a clear when disabled. -/
def xWriter : RunPass :=
  ⟨1, 1, true, ⟨Access.shaderRead, Stage.computeShader⟩,
    [ImageAdder.clearableOutputStorage.attach 1 0 [xView]], [], [(xView, .clear xView 0 Layout.shaderReadOnly)],
    fun _ r => r.emit (.user 1)⟩
/-- A graphics pass sampling it. -/
def xReader : RunPass :=
  ⟨2, 1, false, ⟨Access.shaderRead, Stage.fragmentShader⟩, [ImageAdder.sampled.attach 2 0 [xView]], [], [],
    fun _ r => r⟩
def xV : View → Prop := fun v => v = xView
def xG : GraphSt := ⟨LayoutMap.empty, [], Ctx.new⟩

/-- A body that records a draw or dispatch is made of calls: using a view for which only that is pending. -/
theorem example_tidy (b : Nat → Rec → Rec) (hb : ∀ i r, b i r = r) :
    TidyGraph false (fun _ => 37) xV [{ xWriter with body := b }, xReader] := by
  have hatt : ∀ x, AttachedTo [{ xWriter with body := b }, xReader] x → x = xView := by
    rintro x ⟨p, hp, a, ha, hx⟩
    simp only [List.mem_cons, List.not_mem_nil, or_false] at hp
    rcases hp with rfl | rfl
    · simp only [xWriter, List.mem_cons, List.not_mem_nil, or_false] at ha
      subst ha
      simpa [ImageAdder.attach, mkImage] using hx
    · simp only [xReader, List.mem_cons, List.not_mem_nil, or_false] at ha
      subst ha
      simpa [ImageAdder.attach, mkImage] using hx
  refine ⟨⟨⟨?_, ?_, ?_, ?_⟩, ?_, ?_, ?_, ?_, ?_⟩, ?_⟩
  · rintro v rfl; rfl
  · rintro v rfl; decide
  · rintro v rfl; decide
  · rintro v w rfl rfl; exact Or.inr ⟨rfl, fun _ _ => Iff.rfl⟩
  · rintro u v rfl rfl _; rfl
  · intro x hx
    rw [hatt x hx]
    exact ⟨rfl, by decide⟩
  · intro p hp a ha _
    simp only [List.mem_cons, List.not_mem_nil, or_false] at hp
    rcases hp with rfl | rfl
    · simp only [xWriter, List.mem_cons, List.not_mem_nil, or_false] at ha
      subst ha; decide
    · simp only [xReader, List.mem_cons, List.not_mem_nil, or_false] at ha
      subst ha; decide
  · intro p hp index
    simp only [List.mem_cons, List.not_mem_nil, or_false] at hp
    rcases hp with rfl | rfl <;> simp [xWriter, xReader]
  · intro p hp va hva
    simp only [List.mem_cons, List.not_mem_nil, or_false] at hp
    rcases hp with rfl | rfl
    · simp only [xWriter, List.mem_cons, List.not_mem_nil, or_false] at hva
      subst hva
      refine ⟨rfl, rfl, ?_⟩
      intro w hw x hx
      rw [hatt x hx]
      exact Or.inr ⟨rfl, fun _ _ => Iff.rfl⟩
    · simp [xReader] at hva
  · intro p hp index r
    simp only [List.mem_cons, List.not_mem_nil, or_false] at hp
    rcases hp with rfl | rfl
    · exact ⟨[], by simp, hb index r⟩
    · exact ⟨[], by simp, rfl⟩

theorem example_honest : Honest (fun _ => 37) xV (fun _ _ _ _ => 0) (startCtx []) xG :=
  ⟨fun _ _ _ _ _ _ h => by simp [known, startCtx, Ctx.new, xG, LayoutMap.empty, LayoutMap.at] at h,
    fun _ _ => Or.inl fun _ _ _ => rfl, fun _ _ => Or.inl fun _ _ _ => rfl, fun _ _ => Or.inl fun _ _ _ => rfl⟩

def xPasses : List RunPass := [{ xWriter with body := fun _ r => r }, xReader]

/-- Both enabled: the stream has the clear's barrier, the clear, the storage barrier and the sampling barrier. -/
example : ((record ⟨false, fun _ => true⟩ xG [] (fun _ => 0) xPasses (fun _ _ => false) []).map
    fun x => x.2.recd.cmds.length) = some 4 := by decide

/-- The writer disabled: its implicit clear runs instead, at the reader. -/
example : ((record ⟨false, fun i => i == 2⟩ xG [] (fun _ => 0) xPasses (fun _ _ => false) []).map
    fun x => x.2.recd.cmds.length) = some 3 := by decide

end Verif.Run
