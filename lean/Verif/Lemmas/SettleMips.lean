import Verif.Lemmas.SettleDraw
import Verif.Lemmas.SettlePass
import Verif.Props.Library
/-
Mipmap generation, as a step (Lemmas/Settle.lean).
-/
namespace Verif.Settle
open Verif.Rec Verif.Att Verif.Run Verif.Gpu Verif.RPass

variable {sepDS : Bool} {fmt : Nat → Nat} {V : View → Prop} {passes : List RunPass} {inp : LayoutMap} {out : Images}
  {base : Nat → Prop} {nx : LayoutMap}

/-! ### What generation touches -/

/-- Nothing but the states of the image changes. -/
def Only (i : Nat) (c c' : Ctx) : Prop := rest c' = rest c ∧ ∀ k, k ≠ i → c'.images k = c.images k

theorem only_refl (i : Nat) (c : Ctx) : Only i c c := ⟨rfl, fun _ _ => rfl⟩
theorem Only.trans {i : Nat} {a b c : Ctx} (h : Only i a b) (h' : Only i b c) : Only i a c :=
  ⟨h'.1.trans h.1, fun k hk => (h'.2 k hk).trans (h.2 k hk)⟩

theorem only_set (c : Ctx) (img : Image) (ty : ViewType) (rg : Range) (s : LayoutState) : Only img.id c (c.setLayout img ty rg s) := by
  refine ⟨rfl, fun k hk => ?_⟩
  simp [Ctx.setLayout, LayoutMap.setState, hk]

theorem only_barrier (env : Env) (r : Rec) (img : Image) (ty : ViewType) (rg : Range) (i : Nat) (w : LayoutState) (f : Bool) :
    Only img.id r.ctx (r.imageBarrier env img ty rg i w f).ctx := by
  obtain ⟨src, -, ⟨-, e⟩ | ⟨-, e⟩⟩ := imageBarrier_cases env r img ty rg i w f <;> rw [e]
  · exact only_set ..
  · exact only_refl ..

theorem only_foldl {α : Type} (i : Nat) (f : Rec → α → Rec) (h : ∀ r a, Only i r.ctx (f r a).ctx) :
    ∀ (l : List α) (r : Rec), Only i r.ctx (l.foldl f r).ctx
  | [], r => only_refl i r.ctx
  | a :: l, r => (h r a).trans (only_foldl i f h l (f r a))

theorem only_level (env : Env) (img : Image) (ty : ViewType) (next : LayoutState) (layer : Nat) (r : Rec) (l : Nat) :
    Only img.id r.ctx (Mip.levelStep env img ty next layer r l).ctx := by
  unfold Mip.levelStep
  simp only
  have h1 := only_barrier env r img ty (Mip.sub (getAspectMask img.format) layer l) Layout.undefined (makeLayoutState Layout.transferDst) false
  generalize r.imageBarrier env img ty (Mip.sub (getAspectMask img.format) layer l) Layout.undefined (makeLayoutState Layout.transferDst) false
    = r1 at h1 ⊢
  generalize hc : Cmd.blitImage _ _ _ _ _ _ _ _ _ = c
  have h2 := only_barrier env (r1.emit c) img ty (Mip.sub (getAspectMask img.format) layer (l - 1)) Layout.transferSrc next false
  generalize (r1.emit c).imageBarrier env img ty (Mip.sub (getAspectMask img.format) layer (l - 1)) Layout.transferSrc next false = r2 at h2 ⊢
  have h3 : Only img.id r.ctx r2.ctx := h1.trans h2
  split
  · exact h3.trans (only_barrier ..)
  · exact h3.trans (only_barrier ..)

theorem only_current (G : GraphSt) (c : Ctx) (v : View) : Only v.image.id c (getCurrentLayoutState G c v).2 := by
  unfold getCurrentLayoutState
  simp only
  (repeat' split) <;> first | exact only_set .. | exact only_refl ..

theorem only_generate (env : Env) (G : GraphSt) (v : View) (ty : ViewType) (next : LayoutState) (r : Rec) :
    Only v.image.id r.ctx (Mip.generate env G v ty next r).ctx := by
  unfold Mip.generate
  refine only_foldl _ _ (fun r layer => ?_) _ _
  unfold Mip.layerStep
  simp only
  have h1 := only_current G r.ctx { v with range := Mip.sub (getAspectMask v.image.format) layer 0 }
  generalize getCurrentLayoutState G r.ctx { v with range := Mip.sub (getAspectMask v.image.format) layer 0 } = cur at h1 ⊢
  have h2 := only_barrier env { r with ctx := cur.2 } v.image ty (Mip.sub (getAspectMask v.image.format) layer 0) cur.1.layout Mip.srcState false
  exact (h1.trans h2).trans (only_foldl _ _ (fun r l => only_level env v.image ty next layer r l) _ _)

/-! ### What is tracked doesn't depend on what has been recorded -/

theorem ctx_barrier (env : Env) {r r' : Rec} (h : r.ctx = r'.ctx) (img : Image) (ty : ViewType) (rg : Range) (i : Nat) (w : LayoutState)
    (f : Bool) : (r.imageBarrier env img ty rg i w f).ctx = (r'.imageBarrier env img ty rg i w f).ctx := by
  cases r with
  | mk c cs =>
    cases r' with
    | mk c' cs' =>
      cases h
      unfold Rec.imageBarrier
      simp only
      repeat' split
      all_goals rfl

theorem ctx_foldl {α : Type} (f : Rec → α → Rec) (h : ∀ r r' a, r.ctx = r'.ctx → (f r a).ctx = (f r' a).ctx) :
    ∀ (l : List α) (r r' : Rec), r.ctx = r'.ctx → (l.foldl f r).ctx = (l.foldl f r').ctx
  | [], _, _, e => e
  | a :: l, r, r', e => ctx_foldl f h l _ _ (h r r' a e)

theorem ctx_level (env : Env) (img : Image) (ty : ViewType) (next : LayoutState) (layer : Nat) {r r' : Rec} (h : r.ctx = r'.ctx) (l : Nat) :
    (Mip.levelStep env img ty next layer r l).ctx = (Mip.levelStep env img ty next layer r' l).ctx := by
  unfold Mip.levelStep
  simp only
  have h1 := ctx_barrier env h img ty (Mip.sub (getAspectMask img.format) layer l) Layout.undefined (makeLayoutState Layout.transferDst) false
  generalize r.imageBarrier env img ty (Mip.sub (getAspectMask img.format) layer l) Layout.undefined (makeLayoutState Layout.transferDst) false
    = r1 at h1 ⊢
  generalize r'.imageBarrier env img ty (Mip.sub (getAspectMask img.format) layer l) Layout.undefined (makeLayoutState Layout.transferDst) false
    = r1' at h1 ⊢
  generalize hc : Cmd.blitImage _ _ _ _ _ _ _ _ _ = c
  have h2 := ctx_barrier env (r := r1.emit c) (r' := r1'.emit c) h1 img ty (Mip.sub (getAspectMask img.format) layer (l - 1))
    Layout.transferSrc next false
  generalize (r1.emit c).imageBarrier env img ty (Mip.sub (getAspectMask img.format) layer (l - 1)) Layout.transferSrc next false = r2 at h2 ⊢
  generalize (r1'.emit c).imageBarrier env img ty (Mip.sub (getAspectMask img.format) layer (l - 1)) Layout.transferSrc next false = r2' at h2 ⊢
  split
  · exact ctx_barrier env h2 ..
  · exact ctx_barrier env h2 ..

theorem ctx_generate (env : Env) (G : GraphSt) (v : View) (ty : ViewType) (next : LayoutState) {r r' : Rec} (h : r.ctx = r'.ctx) :
    (Mip.generate env G v ty next r).ctx = (Mip.generate env G v ty next r').ctx := by
  unfold Mip.generate
  refine ctx_foldl _ (fun r r' layer h => ?_) _ _ _ h
  unfold Mip.layerStep
  simp only
  refine ctx_foldl _ (fun r r' l h => ?_) _ _ _ ?_
  · exact ctx_level env v.image ty next layer h l
  · rw [h]
    generalize getCurrentLayoutState G r'.ctx { v with range := Mip.sub (getAspectMask v.image.format) layer 0 } = cur
    exact ctx_barrier env (r := { r with ctx := cur.2 }) (r' := { r' with ctx := cur.2 }) rfl ..

/-! ### Generation -/

theorem sim_generate (hT : TidyViews sepDS fmt V passes) (en : Nat → Bool) {f : LayoutMap} {T : Map} {N : Ctx} {r : Rec}
    (hO : Ok V inp T) (hf : ∀ v, V v → Whole f v) (h : Sim base f T N r) {v : View} (hv : V v) (hne : v.range.NonEmpty)
    (hm0 : v.range.baseMip = 0) (hml : v.range.levels = v.image.mipLevels) (hm : 2 ≤ v.image.mipLevels)
    (htr : ∀ l m, v.range.Has l m → r.ctx.images.at v.image.id l m ≠ none) {ty : ViewType} (ht : ty ≠ .d3) {next : LayoutState}
    (hn : next.layout ≠ Layout.undefined) (hns : next.layout ≠ Layout.transferSrc) (hnd : next.layout ≠ Layout.transferDst) (G : GraphSt) :
    Sim base f (upd T v.image.id v.range fun _ => .is (some next)) N (Mip.generate ⟨sepDS, en⟩ G v ty next r) := by
  let g0 : Layouts := fun i _ l m => ((r.ctx.images.at i l m).map (·.layout)).getD 0
  have hg : Mip.Good fmt g0 (Mip.Cells v) ⟨r.ctx, []⟩ := by
    refine ⟨?_, trivial, ?_⟩
    · intro i a l m _
      simp only [execAll, List.foldl_nil]
      cases hx : r.ctx.images.at i l m with
      | none => simp
      | some s => simp [g0, hx]
    · rintro i l m s ⟨rfl, hc⟩ hs
      rcases sim_view hO h hf hv with hu | ⟨s', hs', hu⟩
      · have := hu l m ((Lib.has_cells hm0 hml l m).2 ⟨rfl, hc⟩)
        simp only at hs
        rw [hs] at this
        simp at this
      · have := hu l m ((Lib.has_cells hm0 hml l m).2 ⟨rfl, hc⟩)
        simp only at hs
        rw [hs] at this
        cases this
        exact hs'
  have key := Mip.layers_ok (env := ⟨sepDS, en⟩) (S := G) (next := next) (hT.tidy.format v hv) ht (hT.tidy.view v hv) hn hm
    v.range.layers v.range.baseLayer ⟨r.ctx, []⟩ hg (fun layer m h1 h2 h3 => ⟨rfl, h1, h2, h3⟩)
    (fun layer h1 h2 => htr layer 0 ((Lib.has_cells hm0 hml _ _).2 ⟨rfl, h1, h2, by omega⟩))
  simp only at key
  have hc : (Mip.generate ⟨sepDS, en⟩ G v ty next r).ctx
      = ((List.range' v.range.baseLayer v.range.layers).foldl (Mip.layerStep ⟨sepDS, en⟩ G v ty next) ⟨r.ctx, []⟩).ctx :=
    ctx_generate ⟨sepDS, en⟩ G v ty next rfl
  obtain ⟨o1, o2⟩ := only_generate ⟨sepDS, en⟩ G v ty next r
  generalize Mip.generate ⟨sepDS, en⟩ G v ty next r = r' at hc o1 o2 ⊢
  obtain ⟨-, k1, k2, -⟩ := key
  have hin : ∀ l m, v.range.Has l m → r'.ctx.images.at v.image.id l m = some next := by
    intro l m hl
    obtain ⟨-, c1, c2, c3⟩ := (Lib.has_cells hm0 hml l m).1 hl
    obtain ⟨t, t1, -, t3⟩ := k1 l m c1 c2 c3
    rw [hc, t1, t3 hns hnd]
  have hout : ∀ i l m, ¬ (i = v.image.id ∧ v.range.Has l m) → r'.ctx.images.at i l m = r.ctx.images.at i l m := by
    intro i l m hx
    rw [hc]
    refine k2 i l m fun hc => hx ⟨hc.1, ?_⟩
    exact (Lib.has_cells hm0 hml l m).2 ⟨rfl, hc.2⟩
  refine ⟨?_, ?_, o1.trans h.rest⟩
  · intro i l m
    unfold upd
    split
    · rename_i hx
      obtain ⟨rfl, hl⟩ := hx
      exact hin l m hl
    · rename_i hx
      rw [hout i l m hx]
      exact h.cells i l m
  · intro i
    by_cases hi : i = v.image.id
    · subst hi
      obtain ⟨l, m, hl⟩ := v.range.nonEmpty_iff.1 hne
      have hx := hin l m hl
      refine ⟨fun _ => Or.inr ⟨l, m, by rw [hx]; simp⟩, fun _ => ?_⟩
      unfold LayoutMap.at at hx
      cases hy : r'.ctx.images v.image.id with
      | none => rw [hy] at hx; simp at hx
      | some x => rfl
    · rw [o2 i hi, h.present i]
      have : ∀ l m, r'.ctx.images.at i l m = r.ctx.images.at i l m := fun l m => hout i l m fun hx => hi hx.1
      simp only [this]

theorem ok_generate (hT : Tidy sepDS fmt V) {T : Map} (hO : Ok V inp T) {v : View} (hv : V v) {next : LayoutState}
    (hn : next.layout ≠ Layout.undefined) : Ok V inp (upd T v.image.id v.range fun _ => .is (some next)) :=
  ok_upd hT hO hv (fun _ _ _ => hn) (fun _ _ _ h => by simp at h)

/-! ### The view is tracked when generation starts -/

theorem mono_image {env : Env} {G : GraphSt} {index : Nat} {r r' : Rec} {a : Attachment} (e : recordImage env G index r a = some r') :
    Mono r r' := by
  unfold recordImage at e
  split at e
  · simp at e
  · rename_i v _
    simp only at e
    have m1 := mono_runImplicit env r v
    generalize r.runImplicit env v = r1 at m1 e
    split at e
    · have m2 : Mono r1 { r1 with ctx := (if (!a.isInput) = true then (makeLayoutState Layout.undefined, r1.ctx)
          else getCurrentLayoutState G r1.ctx v).2 } := by
        split
        · exact mono_refl r1
        · exact mono_current G r1 v
      generalize (if (!a.isInput) = true then (makeLayoutState Layout.undefined, r1.ctx) else getCurrentLayoutState G r1.ctx v) = cur at m2 e
      split at e
      · simp only [Option.some.injEq] at e
        subst e
        refine mono_trans _ _ _ m1 (mono_trans _ _ _ m2 (mono_trans _ _ _
          (mono_barrier env { r1 with ctx := cur.2 } v cur.1.layout clearState false) ?_))
        exact mono_barrier env (Rec.emit _ _) v Layout.transferDst _ false
      · simp only [Option.some.injEq] at e
        subst e
        exact mono_trans _ _ _ m1 (mono_trans _ _ _ m2 (mono_barrier _ _ _ _ _ _))
    · simp only [Option.some.injEq] at e
      subst e
      exact m1

theorem bufferBarrier_images (r : Rec) (b o s : Nat) (i w : AccessState) (force : Bool) :
    (r.bufferBarrier b o s i w force).ctx.images = r.ctx.images := by
  rw [bufferBarrier_ctx]
  split <;> rfl

theorem mono_buffer {compute : Bool} {index : Nat} {r r' : Rec} {a : Attachment} (e : recordBuffer compute index r a = some r') :
    Mono r r' := by
  have hm : r'.ctx.images = r.ctx.images := by
    unfold recordBuffer at e
    split at e
    · split at e
      · simp at e
      · simp only at e
        split at e
        · simp only [Option.some.injEq] at e
          subst e
          rw [bufferBarrier_images]
          exact bufferBarrier_images ..
        · simp only [Option.some.injEq] at e
          subst e
          exact bufferBarrier_images ..
    · simp only [Option.some.injEq] at e
      subst e
      rfl
  intro i l m h
  rwa [hm] at h

theorem mono_fold {α : Type} {f : Rec → α → Option Rec} (h : ∀ r a r', f r a = some r' → Mono r r') : ∀ (l : List α) {r r' : Rec},
    Run.foldOpt f r l = some r' → Mono r r'
  | [], r, r', e => by simp only [Run.foldOpt, Option.some.injEq] at e; subst e; exact mono_refl r
  | a :: l, r, r', e => by
    simp only [Run.foldOpt] at e
    split at e
    · simp at e
    · rename_i r1 e1
      exact mono_trans _ _ _ (h r a r1 e1) (mono_fold h l e)

/-- After the graph moves an image, it is tracked. -/
theorem tracked_image (hT : Tidy sepDS fmt V) (hne : ∀ v, V v → v.range.NonEmpty) (hin : ∀ v, V v → Whole inp v) (en : Nat → Bool)
    {index : Nat} {a : Attachment} {v : View} (hv : V v) (hvw : a.img.view index = some v) (hm : moved a = true)
    (hlay : a.getImageLayout sepDS ≠ Layout.undefined) {T : Map} {N : Ctx} (hO : Ok V inp T) (hN : NOk V nx N) {G : GraphSt}
    (hG : Cond V inp out G) {r r' : Rec} (h : Sim base G.final.images T N r) (e : recordImage ⟨sepDS, en⟩ G index r a = some r') :
    ∀ l m, v.range.Has l m → r'.ctx.images.at v.image.id l m ≠ none := by
  obtain ⟨T1, N1, hO1, hN1, h1⟩ := steps_runImplicit (base := base) (out := out) hT hne en _ T N v rfl hO hN
  have h1 := h1 G r hG h
  unfold recordImage at e
  rw [hvw] at e
  simp only [hm, if_true] at e h1
  generalize r.runImplicit ⟨sepDS, en⟩ v = r1 at h1 e
  have hL : ∃ T2, Ok V inp T2 ∧
      let cur : LayoutState × Ctx :=
        if !a.isInput then (makeLayoutState Layout.undefined, r1.ctx) else getCurrentLayoutState G r1.ctx v
      Sim base G.final.images T2 N1 { r1 with ctx := cur.2 }
      ∧ (cur.1.layout = Layout.undefined ∨ ∃ s : LayoutState, s.layout ≠ Layout.undefined
        ∧ UniformState cur.2.images v.image.id v.range s) := by
    by_cases hi : a.isInput = true
    · obtain ⟨I, hI, hIg⟩ := whole_inputs hin hv
      refine ⟨_, ok_look hT hO1 hv hI hIg, ?_⟩
      simp only [hi, Bool.not_true, Bool.false_eq_true, if_false]
      exact sim_look hT hne hG hO1 h1 hv hI hIg
    · refine ⟨T1, hO1, ?_⟩
      simp only [Bool.not_eq_true] at hi
      simp only [hi, Bool.not_false, if_true]
      exact ⟨h1, Or.inl rfl⟩
  obtain ⟨T2, hO2, h2, h3⟩ := hL
  generalize (if (!a.isInput) = true then (makeLayoutState Layout.undefined, r1.ctx) else getCurrentLayoutState G r1.ctx v) = cur at h2 h3 e
  have fin : ∀ x : Rec, (∃ s : LayoutState, s.layout ≠ Layout.undefined ∧ UniformState x.ctx.images v.image.id v.range s) →
      ∀ l m, v.range.Has l m → x.ctx.images.at v.image.id l m ≠ none := by
    rintro x ⟨s, -, hs⟩ l m hl
    rw [hs l m hl]
    simp
  by_cases hc : a.isClearableImage = true
  · simp only [hc, if_true, Option.some.injEq] at e
    subst e
    have hO3 := ok_barrier hT hO2 hv (w := clearState) (by decide) false
    have h4 := sim_barrier hT hne en hO2 hG.final h2 hv cur.1.layout (w := clearState) (by decide) false h3
    have h5 := sim_emit h4 (.clearImage (isColourFormat v.format) v.image.id Layout.transferDst v.range 0)
    have h6 := sim_barrier hT hne en hO3 hG.final h5 hv Layout.transferDst (w := makeLayoutState (a.getImageLayout sepDS)) hlay false
      (Or.inr (after_barrier hT hne hO2 hG.final hv (by decide) h5))
    exact fin _ (after_barrier hT hne hO3 hG.final hv hlay h6)
  · simp only [hc] at e
    simp only [Bool.false_eq_true, if_false, Option.some.injEq] at e
    subst e
    exact fin _ (after_barrier hT hne hO2 hG.final hv hlay (sim_barrier hT hne en hO2 hG.final h2 hv _ hlay false h3))

/-- After the graph has prepared a pass, the view of its first attachment, which the graph moves, is tracked. -/
theorem tracked_head (hT : TidyViews sepDS fmt V passes) (hne : ∀ v, V v → v.range.NonEmpty) (hin : ∀ v, V v → Whole inp v)
    (en : Nat → Bool) {p : RunPass} (hp : p ∈ passes) {index : Nat} {a : Attachment} (ha : p.images.head? = some a) {v : View}
    (hvw : a.img.view index = some v) (hm : moved a = true) {T : Map} {N : Ctx} (hO : Ok V inp T) (hN : NOk V nx N) {G : GraphSt}
    (hG : Cond V inp out G) {r r' : Rec} (h : Sim base G.final.images T N r) (e : prepare ⟨sepDS, en⟩ G p index r = some r') :
    ∀ l m, v.range.Has l m → r'.ctx.images.at v.image.id l m ≠ none := by
  have hmem := List.mem_of_mem_head? ha
  have hv := (hT.attached v ⟨p, hp, a, hmem, view_mem hvw⟩).1
  have hlay := hT.layouts p hp a hmem hm
  unfold prepare at e
  split at e
  · simp at e
  · rename_i r2 e2
    cases hi : p.images with
    | nil => rw [hi] at ha; simp at ha
    | cons b as =>
      rw [hi] at ha e2
      simp only [List.head?_cons, Option.some.injEq] at ha
      subst ha
      simp only [Run.foldOpt] at e2
      split at e2
      · simp at e2
      · rename_i r1 e1
        have h1 := tracked_image hT.tidy hne hin en hv hvw hm hlay hO hN hG h e1
        have m1 := mono_fold (fun _ _ _ e => mono_image e) as e2
        have m2 := mono_fold (fun _ _ _ e => mono_buffer e) p.buffers e
        intro l m hl hx
        exact h1 l m hl (m1 _ l m (m2 _ l m hx))

end Verif.Settle
