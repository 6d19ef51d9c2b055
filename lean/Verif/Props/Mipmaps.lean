import Verif.Spec.Mipmaps
import Verif.Props.Barriers
import Verif.Lemmas.RunnableGraph
/-
C38: mipmap generation.
-/
namespace Verif.Mip
open Verif.Rec Verif.Run Verif.Gpu

/-- A recording in order: what is tracked is what the GPU has, with real layouts (for the subresources `C`), and the
commands are valid. -/
structure Good (fmt : Nat → Nat) (g0 : Layouts) (C : Nat → Nat → Nat → Prop) (r : Rec) : Prop where
  mirrors : Mirrors fmt g0 r.ctx.images (execAll g0 r.cmds)
  valid : StreamValid g0 r.cmds
  real : ∀ i l v s, C i l v → r.ctx.images.at i l v = some s → s.layout ≠ Layout.undefined

theorem sub_has (asp layer lev l v : Nat) : (sub asp layer lev).Has l v ↔ l = layer ∧ v = lev := by
  simp only [sub, Range.Has]; omega

theorem sub_nonEmpty (asp layer lev : Nat) : (sub asp layer lev).NonEmpty := by simp [sub, Range.NonEmpty]

/-- One barrier on one subresource. -/
theorem barrier_one {env : Env} {fmt : Nat → Nat} {g0 : Layouts} {C : Nat → Nat → Nat → Prop} {r : Rec} {img : Image} {ty : ViewType}
    {layer lev i : Nat} {w : LayoutState} (G : Good fmt g0 C r) (hC : C img.id layer lev) (hf : img.format = fmt img.id) (ht : ty ≠ .d3)
    (hw : w.layout ≠ Layout.undefined)
    (hi : i = Layout.undefined ∨ r.ctx.images.at img.id layer lev ≠ none) :
    let r' := r.imageBarrier env img ty (sub (getAspectMask img.format) layer lev) i w false
    Good fmt g0 C r' ∧ (∃ t, r'.ctx.images.at img.id layer lev = some t ∧ t.layout = w.layout ∧
      ((∀ s, r.ctx.images.at img.id layer lev = some s → s.layout ≠ w.layout) → t = w)) ∧
    (∀ k l v, ¬ (k = img.id ∧ l = layer ∧ v = lev) → r'.ctx.images.at k l v = r.ctx.images.at k l v) ∧
    work r'.cmds = work r.cmds := by
  have hred : r.imageBarrier env img ty (sub (getAspectMask img.format) layer lev) i w false =
      r.imageBarrier env img ty (sub (getAspectMask img.format) layer lev) Layout.undefined w false := by
    rcases hi with rfl | hi
    · rfl
    · obtain ⟨s, hs⟩ := Option.ne_none_iff_exists'.mp hi
      refine barrier_tracked_initial env r ⟨0, img, ty, 0, sub (getAspectMask img.format) layer lev⟩ ht
        (sub_nonEmpty ..) s (G.real _ _ _ _ hC hs) ?_ _ _ _ _
      intro l v h
      rw [sub_has] at h
      rw [h.1, h.2]; exact hs
  intro r'
  have er' : r' = request env r ⟨img, ty, sub (getAspectMask img.format) layer lev, Layout.undefined, w, false⟩ := hred
  clear_value r'
  subst er'
  generalize hq : (⟨img, ty, sub (getAspectMask img.format) layer lev, Layout.undefined, w, false⟩ : Request) = q
  have q1 : q.img = img := by rw [← hq]
  have q2 : q.vt = ty := by rw [← hq]
  have q3 : q.sub = sub (getAspectMask img.format) layer lev := by rw [← hq]
  have q4 : q.initial = Layout.undefined := by rw [← hq]
  have q5 : q.wanted = w := by rw [← hq]
  have ho : Ordinary env fmt q := ⟨by rw [q1, hf], by rw [q2]; exact ht, by rw [q1, q3]; exact Or.inl (getAspectMask_eq _), by rw [q5]; exact hw⟩
  have hd := designates_plain ho.view
  have hne : q.sub.NonEmpty := by rw [q3]; exact sub_nonEmpty ..
  have hu : Uniform r.ctx.images q := by
    cases hx : r.ctx.images.at img.id layer lev with
    | none =>
      left; intro l v h
      rw [q3, sub_has] at h
      rw [q1, h.1, h.2]; exact hx
    | some s =>
      right
      refine ⟨s, ?_, G.real _ _ _ _ hC hx⟩
      intro l v h
      rw [q3, sub_has] at h
      rw [q1, h.1, h.2]; exact hx
  have hat : ∀ k l v, ¬ (k = img.id ∧ l = layer ∧ v = lev) →
      (request env r q).ctx.images.at k l v = r.ctx.images.at k l v := by
    intro k l v h
    refine barrier_frame env r q q.sub hd k l v ?_
    rw [q1, q3, sub_has]; exact h
  have htr : ∃ t, (request env r q).ctx.images.at img.id layer lev = some t ∧ t.layout = w.layout ∧
      ((∀ s, r.ctx.images.at img.id layer lev = some s → s.layout ≠ w.layout) → t = w) := by
    have := (barrier_tracks_wanted_partial env r q q.sub hd hne ho.wanted (by
      rcases hu with hu | hu
      · right; exact ⟨hu, by rw [q4, q5]; exact fun h => hw h.symm⟩
      · left; exact hu)).1 layer lev (by rw [q3, sub_has]; exact ⟨rfl, rfl⟩)
    obtain ⟨t, h1, h2, -⟩ := this
    rw [q1] at h1; rw [q5] at h2
    refine ⟨t, h1, h2, fun hdiff => ?_⟩
    obtain ⟨src, e0, ⟨-, e⟩ | ⟨hn, -⟩⟩ :=
      imageBarrier_cases env r q.img q.vt q.sub q.initial q.wanted q.force
    · have hx : request env r q = _ := e
      rw [hx] at h1
      simp only [Ctx.setLayout, LayoutMap.at_setState] at h1
      rw [virtual_plain _ _ ho.view] at h1
      simp only [adaptRange_has, q1, q3, q5, sub_has, and_self, if_true, Option.some.injEq] at h1
      exact h1.symm
    · exfalso
      apply hn
      refine Or.inr ⟨Or.inl ?_, by rw [q5]; exact hw⟩
      rcases hu with hu | ⟨s, hu, hs⟩
      · rw [if_pos (getState_of_untracked hd hu)] at e0
        rw [e0, q4, q5]
        exact fun h => hw h.symm
      · rw [getState_of_uniform hd hne hu, if_neg hs] at e0
        rw [e0, q5]
        refine hdiff s ?_
        have := hu layer lev (by rw [q3, sub_has]; exact ⟨rfl, rfl⟩)
        rwa [q1] at this
  refine ⟨⟨mirrors_step env fmt g0 r q ho G.mirrors, valid_step env fmt g0 r q ho (Or.inl q4) G.mirrors hu G.valid,
    ?_⟩, htr, hat, ?_⟩
  · intro k l v s hc hs
    by_cases h : k = img.id ∧ l = layer ∧ v = lev
    · obtain ⟨rfl, rfl, rfl⟩ := h
      obtain ⟨t, h1, h2, -⟩ := htr
      rw [h1] at hs
      have : t = s := by simpa using hs
      rw [← this, h2]; exact hw
    · rw [hat k l v h] at hs
      exact G.real _ _ _ _ hc hs
  · obtain ⟨src, -, ⟨-, e⟩ | ⟨-, e⟩⟩ :=
      imageBarrier_cases env r q.img q.vt q.sub q.initial q.wanted q.force <;> unfold request <;> rw [e]
    simp [work]

theorem dimension_eq (e l : Nat) : dimension e l = levelSize e l := by
  unfold dimension levelSize
  rw [Nat.shiftRight_eq_div_pow]
  generalize e / 2 ^ l = x
  split <;> omega

/-- Tracked layout of a level. -/
def Tracked (r : Rec) (img layer lev layout : Nat) : Prop :=
  ∃ t, r.ctx.images.at img layer lev = some t ∧ t.layout = layout

/-- The level is tracked in the layout of `w`, and in the very state `w` unless that is a transfer layout. -/
def Ends (r : Rec) (img layer lev : Nat) (w : LayoutState) : Prop :=
  ∃ t, r.ctx.images.at img layer lev = some t ∧ t.layout = w.layout ∧
    (w.layout ≠ Layout.transferSrc → w.layout ≠ Layout.transferDst → t = w)

theorem Ends.tracked {r : Rec} {img layer lev : Nat} {w : LayoutState} (h : Ends r img layer lev w) :
    Tracked r img layer lev w.layout := by
  obtain ⟨t, h1, h2, -⟩ := h
  exact ⟨t, h1, h2⟩

/-- One turn of the loop. -/
theorem levelStep_ok {env : Env} {fmt : Nat → Nat} {g0 : Layouts} {C : Nat → Nat → Nat → Prop} {r : Rec} {img : Image} {ty : ViewType}
    {next : LayoutState} {layer l : Nat} (G : Good fmt g0 C r)
    (hC : ∀ m, m < img.mipLevels → C img.id layer m) (hlt : l + 1 < img.mipLevels) (hf : img.format = fmt img.id) (ht : ty ≠ .d3)
    (hn : next.layout ≠ Layout.undefined) (hs : Tracked r img.id layer l Layout.transferSrc) :
    let r' := levelStep env img ty next layer r (l + 1)
    Good fmt g0 C r' ∧ Ends r' img.id layer l next ∧
    (if l + 1 = img.mipLevels - 1 then Ends r' img.id layer (l + 1) next
      else Tracked r' img.id layer (l + 1) Layout.transferSrc) ∧
    (∀ k y v, ¬ (k = img.id ∧ y = layer ∧ (v = l ∨ v = l + 1)) → r'.ctx.images.at k y v = r.ctx.images.at k y v) ∧
    work r'.cmds = work r.cmds ++ [downscale img layer l] := by
  have b1 := barrier_one (env := env) (ty := ty) (layer := layer) (lev := l + 1) (i := Layout.undefined)
    (w := makeLayoutState Layout.transferDst) G (hC _ hlt) hf ht (by decide) (Or.inl rfl)
  simp only at b1
  unfold levelStep
  simp only [Nat.add_sub_cancel]
  generalize r.imageBarrier env img ty (sub (getAspectMask img.format) layer (l + 1)) Layout.undefined
    (makeLayoutState Layout.transferDst) false = r1 at b1 ⊢
  obtain ⟨G1, ⟨t1s, t1a, t1b, -⟩, f1, w1⟩ := b1
  have t1 : Tracked r1 img.id layer (l + 1) Layout.transferDst := ⟨t1s, t1a, t1b⟩
  have s1 : Tracked r1 img.id layer l Layout.transferSrc := by
    obtain ⟨t, h1, h2⟩ := hs
    exact ⟨t, by rw [f1 _ _ _ (by omega)]; exact h1, h2⟩
  -- the blit
  have layoutAt : ∀ (lev layout : Nat), Tracked r1 img.id layer lev layout → ∀ a l' v,
      Selects (sub (getAspectMask img.format) layer lev) a l' v → execAll g0 r1.cmds img.id a l' v = layout := by
    rintro lev layout ⟨t, h1, h2⟩ a l' v ⟨ha, hl⟩
    rw [sub_has] at hl
    obtain ⟨rfl, rfl⟩ := hl
    have := G1.mirrors img.id a l' v (by rw [← hf, HasAspect, ← getAspectMask_eq]; exact ha)
    rw [h1] at this
    rw [this, h2]
  have G2 : Good fmt g0 C (r1.emit (.blitImage img.id Layout.transferSrc (sub (getAspectMask img.format) layer l)
      (corners img l) img.id Layout.transferDst (sub (getAspectMask img.format) layer (l + 1)) (corners img (l + 1)) filterLinear)) := by
    refine ⟨?_, ?_, G1.real⟩
    · simp only [Rec.emit, execAll_snoc, exec]; exact G1.mirrors
    · simp only [Rec.emit, streamValid_snoc]
      exact ⟨G1.valid, layoutAt l _ s1, layoutAt (l + 1) _ t1⟩
  have w2 : work (r1.emit (.blitImage img.id Layout.transferSrc (sub (getAspectMask img.format) layer l)
      (corners img l) img.id Layout.transferDst (sub (getAspectMask img.format) layer (l + 1)) (corners img (l + 1)) filterLinear)).cmds
      = work r.cmds ++ [downscale img layer l] := by
    rw [← w1]
    simp [Rec.emit, work, downscale, corners, filterLinear, dimension_eq, sub, getAspectMask_eq]
  have f2 : ∀ c, (r1.emit c).ctx = r1.ctx := fun _ => rfl
  have b3 := barrier_one (env := env) (ty := ty) (layer := layer) (lev := l) (i := Layout.transferSrc)
    (w := next) G2 (hC _ (by omega)) hf ht hn (by
      obtain ⟨t, h1, _⟩ := s1
      right; rw [f2, h1]; simp)
  simp only at b3
  generalize (r1.emit (.blitImage img.id Layout.transferSrc (sub (getAspectMask img.format) layer l)
      (corners img l) img.id Layout.transferDst (sub (getAspectMask img.format) layer (l + 1))
      (corners img (l + 1)) filterLinear)).imageBarrier env img ty (sub (getAspectMask img.format) layer l) Layout.transferSrc
      next false = r3 at b3 ⊢
  obtain ⟨G3, t3, f3, w3⟩ := b3
  have t3' : r3.ctx.images.at img.id layer (l + 1) ≠ none := by
    obtain ⟨t, h1, _⟩ := t1
    rw [f3 _ _ _ (by omega), f2, h1]; simp
  have fin : ∀ w : LayoutState, w.layout ≠ Layout.undefined →
      let r' := r3.imageBarrier env img ty (sub (getAspectMask img.format) layer (l + 1)) Layout.transferDst w false
      Good fmt g0 C r' ∧ Ends r' img.id layer l next ∧ Ends r' img.id layer (l + 1) w ∧
      (∀ k y v, ¬ (k = img.id ∧ y = layer ∧ (v = l ∨ v = l + 1)) →
        r'.ctx.images.at k y v = r.ctx.images.at k y v) ∧
      work r'.cmds = work r.cmds ++ [downscale img layer l] := by
    intro w hw
    have b4 := barrier_one (env := env) (ty := ty) (layer := layer) (lev := l + 1) (i := Layout.transferDst)
      (w := w) G3 (hC _ hlt) hf ht hw (Or.inr t3')
    simp only at b4 ⊢
    obtain ⟨G4, t4, f4, w4⟩ := b4
    refine ⟨G4, ?_, ?_, ?_, ?_⟩
    · obtain ⟨t, h1, h2, h3⟩ := t3
      refine ⟨t, by rw [f4 _ _ _ (by omega)]; exact h1, h2, fun n1 _ => h3 fun s hs => ?_⟩
      obtain ⟨u, hu1, hu2⟩ := s1
      rw [f2, hu1] at hs
      cases hs
      rw [hu2]
      exact fun e => n1 e.symm
    · obtain ⟨t, h1, h2, h3⟩ := t4
      refine ⟨t, h1, h2, fun _ n2 => h3 fun s hs => ?_⟩
      rw [f3 _ _ _ (by omega), f2, t1a] at hs
      cases hs
      rw [t1b]
      exact fun e => n2 e.symm
    · intro k y v h
      rw [f4 _ _ _ (by omega), f3 _ _ _ (by omega), f2, f1 _ _ _ (by omega)]
    · rw [w4, w3, w2]
  split
  · have := fin next hn
    simpa only [if_true] using this
  · have := fin (makeLayoutState Layout.transferSrc) (show Layout.transferSrc ≠ Layout.undefined by decide)
    exact ⟨this.1, this.2.1, this.2.2.1.tracked, this.2.2.2⟩

/-- The loop over levels. -/
theorem levels_ok {env : Env} {fmt : Nat → Nat} {g0 : Layouts} {C : Nat → Nat → Nat → Prop} {img : Image} {ty : ViewType}
    {next : LayoutState} {layer : Nat} (hf : img.format = fmt img.id) (ht : ty ≠ .d3)
    (hn : next.layout ≠ Layout.undefined) (hC : ∀ m, m < img.mipLevels → C img.id layer m) (n l : Nat) (r : Rec)
    (hl : l + n = img.mipLevels - 1) (G : Good fmt g0 C r)
    (hs : if n = 0 then Ends r img.id layer l next else Tracked r img.id layer l Layout.transferSrc) :
    let r' := (List.range' (l + 1) n).foldl (levelStep env img ty next layer) r
    Good fmt g0 C r' ∧ (∀ v, l ≤ v → v ≤ l + n → Ends r' img.id layer v next) ∧
    (∀ k y v, ¬ (k = img.id ∧ y = layer ∧ l ≤ v ∧ v ≤ l + n) → r'.ctx.images.at k y v = r.ctx.images.at k y v) ∧
    work r'.cmds = work r.cmds ++ (List.range' l n).map (downscale img layer) := by
  induction n generalizing l r with
  | zero =>
    refine ⟨G, fun v h1 h2 => ?_, fun _ _ _ _ => rfl, by simp⟩
    have : v = l := by omega
    rw [this]; simpa using hs
  | succ n ih =>
    simp only [Nat.add_one_ne_zero, if_false] at hs
    have st := levelStep_ok (env := env) (next := next) G hC (by omega) hf ht hn hs
    simp only at st
    simp only [List.range'_succ, List.foldl_cons]
    generalize levelStep env img ty next layer r (l + 1) = r1 at st ⊢
    obtain ⟨G1, a1, a2, a3, a4⟩ := st
    have hc : (l + 1 = img.mipLevels - 1) ↔ n = 0 := by omega
    have := ih (l + 1) r1 (by omega) G1 (by
      by_cases h : n = 0
      · rw [if_pos h]; rwa [if_pos (hc.mpr h)] at a2
      · rw [if_neg h]; rwa [if_neg (fun e => h (hc.mp e))] at a2)
    simp only at this
    obtain ⟨G2, b1, b2, b3⟩ := this
    refine ⟨G2, fun v h1 h2 => ?_, fun k y v h => ?_, ?_⟩
    · by_cases hv : v = l
      · subst hv
        obtain ⟨t, c1, c2⟩ := a1
        exact ⟨t, by rw [b2 _ _ _ (by omega)]; exact c1, c2⟩
      · exact b1 v (by omega) (by omega)
    · rw [b2 _ _ _ (by omega), a3 _ _ _ (by omega)]
    · rw [b3, a4]; simp

theorem getCurrent_tracked {G : GraphSt} {c : Ctx} {v : View} {s : LayoutState} (hv : v.viewType ≠ .d3)
    (hne : v.range.NonEmpty) (h : ∀ l k, v.range.Has l k → c.images.at v.image.id l k = some s)
    (hs : s.layout ≠ Layout.undefined) : getCurrentLayoutState G c v = (s, c) := by
  have := getState_plain_uniform (m := c.images) hv hne h
  unfold getCurrentLayoutState
  simp only [this, if_neg hs]

/-- One layer. -/
theorem layerStep_ok {env : Env} {fmt : Nat → Nat} {g0 : Layouts} {C : Nat → Nat → Nat → Prop} {S : GraphSt} {v : View} {ty : ViewType}
    {next : LayoutState} {layer : Nat} {r : Rec} (hf : v.image.format = fmt v.image.id) (ht : ty ≠ .d3)
    (hv : v.viewType ≠ .d3) (hn : next.layout ≠ Layout.undefined) (hm : 2 ≤ v.image.mipLevels) (G : Good fmt g0 C r)
    (hC : ∀ m, m < v.image.mipLevels → C v.image.id layer m)
    (h0 : r.ctx.images.at v.image.id layer 0 ≠ none) :
    let r' := layerStep env S v ty next r layer
    Good fmt g0 C r' ∧ (∀ l, l < v.image.mipLevels → Ends r' v.image.id layer l next) ∧
    (∀ k y l, ¬ (k = v.image.id ∧ y = layer ∧ l < v.image.mipLevels) → r'.ctx.images.at k y l = r.ctx.images.at k y l) ∧
    work r'.cmds = work r.cmds ++ (List.range (v.image.mipLevels - 1)).map (downscale v.image layer) := by
  obtain ⟨s, hs⟩ := Option.ne_none_iff_exists'.mp h0
  have hc := getCurrent_tracked (G := S) (c := r.ctx)
    (v := { v with range := sub (getAspectMask v.image.format) layer 0 }) (s := s) hv (sub_nonEmpty ..)
    (by intro l k h; rw [sub_has] at h; rw [h.1, h.2]; exact hs) (G.real _ _ _ _ (hC 0 (by omega)) hs)
  unfold layerStep
  simp only [hc]
  have b := barrier_one (env := env) (img := v.image) (ty := ty) (layer := layer) (lev := 0) (i := s.layout) (w := srcState) G (hC 0 (by omega)) hf ht
    (show Layout.transferSrc ≠ Layout.undefined by decide) (Or.inr h0)
  simp only at b
  generalize r.imageBarrier env v.image ty (sub (getAspectMask v.image.format) layer 0) s.layout srcState false = r1 at b ⊢
  obtain ⟨G1, ⟨t1s, t1a, t1b, -⟩, f1, w1⟩ := b
  have := levels_ok (env := env) (ty := ty) (next := next) (layer := layer) hf ht hn hC (v.image.mipLevels - 1) 0 r1
    (by omega) G1 (by rw [if_neg (by omega)]; exact ⟨t1s, t1a, t1b⟩)
  simp only [Nat.zero_add] at this ⊢
  obtain ⟨G2, b1, b2, b3⟩ := this
  refine ⟨G2, fun l hl => b1 l (by omega) (by omega), fun k y l h => ?_, ?_⟩
  · rw [b2 _ _ _ (by omega), f1 _ _ _ (by omega)]
  · rw [b3, w1, List.range_eq_range']

theorem layers_ok {env : Env} {fmt : Nat → Nat} {g0 : Layouts} {C : Nat → Nat → Nat → Prop} {S : GraphSt} {v : View} {ty : ViewType}
    {next : LayoutState} (hf : v.image.format = fmt v.image.id) (ht : ty ≠ .d3)
    (hv : v.viewType ≠ .d3) (hn : next.layout ≠ Layout.undefined) (hm : 2 ≤ v.image.mipLevels)
    (n b : Nat) (r : Rec) (G : Good fmt g0 C r)
    (hC : ∀ layer m, b ≤ layer → layer < b + n → m < v.image.mipLevels → C v.image.id layer m)
    (h0 : ∀ layer, b ≤ layer → layer < b + n → r.ctx.images.at v.image.id layer 0 ≠ none) :
    let r' := (List.range' b n).foldl (layerStep env S v ty next) r
    Good fmt g0 C r' ∧
    (∀ layer l, b ≤ layer → layer < b + n → l < v.image.mipLevels → Ends r' v.image.id layer l next) ∧
    (∀ k y l, ¬ (k = v.image.id ∧ b ≤ y ∧ y < b + n ∧ l < v.image.mipLevels) → r'.ctx.images.at k y l = r.ctx.images.at k y l) ∧
    work r'.cmds = work r.cmds ++ expectedWork v.image b n := by
  induction n generalizing b r with
  | zero => exact ⟨G, fun _ _ _ _ _ => by omega, fun _ _ _ _ => rfl, by simp [expectedWork]⟩
  | succ n ih =>
    have st := layerStep_ok (env := env) (S := S) (next := next) (layer := b) hf ht hv hn hm G
      (fun m hm => hC b m (by omega) (by omega) hm) (h0 b (by omega) (by omega))
    simp only at st
    simp only [List.range'_succ, List.foldl_cons]
    generalize layerStep env S v ty next r b = r1 at st ⊢
    obtain ⟨G1, a1, a2, a3⟩ := st
    have := ih (b + 1) r1 G1 (fun layer m h1 h2 h3 => hC layer m (by omega) (by omega) h3) (fun layer h1 h2 => by
      rw [a2 _ _ _ (by omega)]; exact h0 layer (by omega) (by omega))
    simp only at this
    obtain ⟨G2, b1, b2, b3⟩ := this
    refine ⟨G2, fun layer l h1 h2 h3 => ?_, fun k y l h => ?_, ?_⟩
    · by_cases hl : layer = b
      · subst hl
        obtain ⟨t, c1, c2⟩ := a1 l h3
        exact ⟨t, by rw [b2 _ _ _ (by omega)]; exact c1, c2⟩
      · exact b1 layer l (by omega) (by omega) h3
    · rw [b2 _ _ _ (by omega), a2 _ _ _ (by omega)]
    · rw [b3, a3]; simp [expectedWork, List.range'_succ]

theorem work_emit_barrier (r : Rec) (i : Nat) (g : Range) (a b : AccessState) (o n : Nat) :
    work (r.emit (.imageBarrier i g a b o n)).cmds = work r.cmds := by
  simp [work, Rec.emit]

theorem work_imageBarrier (env : Env) (r : Rec) (img : Image) (vt : ViewType) (s : Range) (i : Nat) (w : LayoutState) (f : Bool) :
    work (r.imageBarrier env img vt s i w f).cmds = work r.cmds := by
  unfold Rec.imageBarrier
  simp only
  repeat' split
  all_goals first | exact work_emit_barrier .. | rfl

theorem work_levelStep (env : Env) (img : Image) (ty : ViewType) (next : LayoutState) (layer : Nat) (r : Rec) (l : Nat) :
    work (levelStep env img ty next layer r (l + 1)).cmds = work r.cmds ++ [downscale img layer l] := by
  have h : ∀ r : Rec, work (r.emit (.blitImage img.id Layout.transferSrc (sub (getAspectMask img.format) layer l) (corners img l)
      img.id Layout.transferDst (sub (getAspectMask img.format) layer (l + 1)) (corners img (l + 1)) filterLinear)).cmds
      = work r.cmds ++ [downscale img layer l] := by
    intro r
    simp [Rec.emit, work, downscale, corners, filterLinear, dimension_eq, sub, getAspectMask_eq]
  unfold levelStep
  simp only [Nat.add_sub_cancel]
  split <;> rw [work_imageBarrier, work_imageBarrier, h, work_imageBarrier]

theorem work_levels (env : Env) (img : Image) (ty : ViewType) (next : LayoutState) (layer : Nat) : ∀ (n l : Nat) (r : Rec),
    work ((List.range' (l + 1) n).foldl (levelStep env img ty next layer) r).cmds
      = work r.cmds ++ (List.range' l n).map (downscale img layer) := by
  intro n
  induction n with
  | zero => intro l r; simp
  | succ n ih =>
    intro l r
    rw [List.range'_succ, List.range'_succ, List.foldl_cons, ih, work_levelStep]
    simp

/-- C38, the work: whatever the image (of one, two or three dimensions, with any number of levels, any format), the range of
layers, the graph, the recording and the announced state, mipmap generation records, beside barriers, exactly the expected
blits: for each layer of the view in turn, each level from the previous one, whole to whole (width, height and depth), with
linear filtering. -/
theorem mipmaps_work (env : Env) (S : GraphSt) (v : View) (ty : ViewType) (next : LayoutState) (r : Rec) :
    work (generate env S v ty next r).cmds = work r.cmds ++ expectedWork v.image v.range.baseLayer v.range.layers := by
  unfold generate expectedWork
  have : ∀ (ls : List Nat) (r : Rec), work (ls.foldl (layerStep env S v ty next) r).cmds
      = work r.cmds ++ ls.flatMap fun layer => (List.range (v.image.mipLevels - 1)).map (downscale v.image layer) := by
    intro ls
    induction ls with
    | nil => intro r; simp
    | cons layer ls ih =>
      intro r
      rw [List.foldl_cons, ih]
      have : work (layerStep env S v ty next r layer).cmds
          = work r.cmds ++ (List.range (v.image.mipLevels - 1)).map (downscale v.image layer) := by
        unfold layerStep
        have h := work_levels env v.image ty next layer (v.image.mipLevels - 1) 0
        simp only [Nat.zero_add] at h
        simp only
        rw [h, work_imageBarrier, List.range_eq_range']
      rw [this, List.flatMap_cons, List.append_assoc]
  exact this _ _

/-- The subresources mipmap generation works on: all the levels of the layers of the view. -/
def Cells (v : View) (i l m : Nat) : Prop :=
  i = v.image.id ∧ v.range.baseLayer ≤ l ∧ l < v.range.baseLayer + v.range.layers ∧ m < v.image.mipLevels

/-- **C38** (partial: images with at least two levels, whose first level is tracked when the pass records, not 3D, and
a real layout announced; see `one_level_left_behind`). Whatever was recorded before (in order: `Good`), for every mip
count, extent and range of layers:
 - the stream of commands stays valid, hence every blit finds its source in TRANSFER_SRC and its destination in
   TRANSFER_DST;
 - beside barriers, exactly the expected blits are recorded: for each layer in turn, each level from the previous one,
   whole to whole;
 - afterwards every level of every layer of the view is in the announced layout on the GPU, and tracked so;
 - nothing else moved. -/
theorem mipmaps_generated_partial (env : Env) (fmt : Nat → Nat) (g0 : Layouts) (S : GraphSt) (v : View) (ty : ViewType)
    (next : LayoutState) (r : Rec) (G : Good fmt g0 (Cells v) r) (hf : v.image.format = fmt v.image.id) (ht : ty ≠ .d3)
    (hv : v.viewType ≠ .d3) (hn : next.layout ≠ Layout.undefined) (hm : 2 ≤ v.image.mipLevels)
    (h0 : ∀ layer, v.range.baseLayer ≤ layer → layer < v.range.baseLayer + v.range.layers →
      r.ctx.images.at v.image.id layer 0 ≠ none) :
    let r' := generate env S v ty next r
    StreamValid g0 r'.cmds ∧
    work r'.cmds = work r.cmds ++ expectedWork v.image v.range.baseLayer v.range.layers ∧
    (∀ a layer l, HasAspect v.image.format a → v.range.baseLayer ≤ layer →
      layer < v.range.baseLayer + v.range.layers → l < v.image.mipLevels →
      execAll g0 r'.cmds v.image.id a layer l = next.layout) ∧
    (∀ k a layer l, HasAspect (fmt k) a →
      ¬ (k = v.image.id ∧ v.range.baseLayer ≤ layer ∧ layer < v.range.baseLayer + v.range.layers
        ∧ l < v.image.mipLevels) →
      execAll g0 r'.cmds k a layer l = execAll g0 r.cmds k a layer l) ∧
    Good fmt g0 (Cells v) r' := by
  have := layers_ok (env := env) (S := S) (next := next) hf ht hv hn hm v.range.layers v.range.baseLayer r G
    (fun layer m h1 h2 h3 => ⟨rfl, h1, h2, h3⟩) h0
  simp only at this
  obtain ⟨G', h1, h2, h3⟩ := this
  refine ⟨G'.valid, h3, fun a layer l ha hl1 hl2 hl => ?_, fun k a layer l ha hk => ?_, G'⟩
  · obtain ⟨t, c1, c2, -⟩ := h1 layer l hl1 hl2 hl
    have := G'.mirrors v.image.id a layer l (by rw [← hf]; exact ha)
    rw [c1] at this
    rw [← c2]; exact this
  · have e := h2 k layer l hk
    have m1 := G.mirrors k a layer l ha
    have m2 := G'.mirrors k a layer l ha
    rw [e] at m2
    cases hx : r.ctx.images.at k layer l with
    | none =>
      rw [hx] at m1 m2
      exact m2.trans m1.symm
    | some s =>
      rw [hx] at m1 m2
      exact m2.trans m1.symm

/-! Non-vacuity: an image of 3 levels and 2 layers, moved to TRANSFER_DST by a previous barrier. -/

def exImg : Image := ⟨4, 37, 3, 2, 5, 3, 1⟩
def exView : View := ⟨1, exImg, .d2Array, 37, ⟨1, 0, 1, 0, 2⟩⟩
def exQ : Request := ⟨exImg, .d2Array, ⟨1, 0, 1, 0, 2⟩, 0, makeLayoutState Layout.transferDst, false⟩
def exRec (env : Env) : Rec := requests env start [exQ]

theorem example_good (env : Env) : Good (fun _ => 37) (fun _ _ _ _ => 0) (Cells exView) (exRec env) ∧
    ∀ layer, layer < 2 → (exRec env).ctx.images.at 4 layer 0 ≠ none := by
  have ho : ∀ q ∈ [exQ], Ordinary env (fun _ => 37) q := by
    intro q hq
    have : q = exQ := by simpa using hq
    subst this
    exact ⟨rfl, by decide, Or.inl (by decide), by decide⟩
  have hat : ∀ k l v, (exRec env).ctx.images.at k l v =
      if k = 4 ∧ l < 2 ∧ v = 0 then some (makeLayoutState Layout.transferDst) else none := by
    intro k l v
    obtain ⟨src, e0, ⟨-, e⟩ | ⟨hn, -⟩⟩ :=
      imageBarrier_cases env start exQ.img exQ.vt exQ.sub exQ.initial exQ.wanted exQ.force
    · have : exRec env = _ := e
      rw [this]
      simp only [Ctx.setLayout, LayoutMap.at_setState]
      rw [virtual_plain _ _ (by decide)]
      simp only [adaptRange_has]
      simp only [exQ, exImg, Range.Has, start, Ctx.new, LayoutMap.empty, LayoutMap.at]
      have : (k = 4 ∧ 0 ≤ l ∧ l < 0 + 2 ∧ 0 ≤ v ∧ v < 0 + 1) ↔ (k = 4 ∧ l < 2 ∧ v = 0) := by omega
      simp only [this]
    · exfalso
      apply hn
      right
      have : (start.ctx.images.getState exQ.img exQ.vt (adaptRange env.sepDS exQ.img.format exQ.sub)).layout
          = Layout.undefined := by
        apply getState_none; intro l v _; rfl
      rw [if_pos this] at e0
      rw [e0]
      decide
  refine ⟨⟨tracker_mirrors_gpu env _ _ _ ho, ?_, ?_⟩, ?_⟩
  · refine barriers_valid_partial env _ _ _ ho ?_ ?_
    · intro p hp q hq _
      have h1 : p = exQ := by simpa using hp
      have h2 : q = exQ := by simpa using hq
      subst h1; subst h2
      exact Or.inl fun _ _ => Iff.rfl
    · intro q hq
      have h1 : q = exQ := by simpa using hq
      subst h1
      exact Or.inl rfl
  · intro i l v s _ hs
    rw [hat] at hs
    split at hs
    · have : makeLayoutState Layout.transferDst = s := by simpa using hs
      rw [← this]; decide
    · simp at hs
  · intro layer hl
    rw [hat]; simp [hl]

/-- Its blits: 5×3 to 2×1 to 1×1, in both layers. -/
theorem example_work : expectedWork exImg 0 2 =
    [.blitImage 4 6 ⟨1, 0, 1, 0, 1⟩ ⟨0, 0, 0, 5, 3, 1⟩ 4 7 ⟨1, 1, 1, 0, 1⟩ ⟨0, 0, 0, 2, 1, 1⟩ 1,
     .blitImage 4 6 ⟨1, 1, 1, 0, 1⟩ ⟨0, 0, 0, 2, 1, 1⟩ 4 7 ⟨1, 2, 1, 0, 1⟩ ⟨0, 0, 0, 1, 1, 1⟩ 1,
     .blitImage 4 6 ⟨1, 0, 1, 1, 1⟩ ⟨0, 0, 0, 5, 3, 1⟩ 4 7 ⟨1, 1, 1, 1, 1⟩ ⟨0, 0, 0, 2, 1, 1⟩ 1,
     .blitImage 4 6 ⟨1, 1, 1, 1, 1⟩ ⟨0, 0, 0, 2, 1, 1⟩ 4 7 ⟨1, 2, 1, 1, 1⟩ ⟨0, 0, 0, 1, 1, 1⟩ 1] := by decide

/-- **Negation**: with a single level, it is left in TRANSFER_SRC whatever layout is announced. -/
theorem one_level_left_behind (env : Env) (fmt : Nat → Nat) (g0 : Layouts) (S : GraphSt) (v : View) (ty : ViewType)
    (next : LayoutState) (r : Rec) (G : Good fmt g0 (Cells v) r) (hf : v.image.format = fmt v.image.id) (ht : ty ≠ .d3)
    (hv : v.viewType ≠ .d3) (hm : v.image.mipLevels = 1) (h1 : v.range.layers = 1)
    (h0 : r.ctx.images.at v.image.id v.range.baseLayer 0 ≠ none) (a : Nat) (ha : HasAspect v.image.format a) :
    execAll g0 (generate env S v ty next r).cmds v.image.id a v.range.baseLayer 0 = Layout.transferSrc := by
  obtain ⟨s, hs⟩ := Option.ne_none_iff_exists'.mp h0
  have hC : Cells v v.image.id v.range.baseLayer 0 := ⟨rfl, Nat.le_refl _, by omega, by omega⟩
  have hc := getCurrent_tracked (G := S) (c := r.ctx)
    (v := { v with range := sub (getAspectMask v.image.format) v.range.baseLayer 0 }) (s := s) hv (sub_nonEmpty ..)
    (by intro l k h; rw [sub_has] at h; rw [h.1, h.2]; exact hs) (G.real _ _ _ _ hC hs)
  have e : generate env S v ty next r =
      r.imageBarrier env v.image ty (sub (getAspectMask v.image.format) v.range.baseLayer 0) s.layout srcState false := by
    unfold generate layerStep
    simp only [h1, hm, List.range'_succ, List.range'_zero, List.foldl_cons, List.foldl_nil, Nat.sub_self, hc]
  have b := barrier_one (env := env) (ty := ty) (layer := v.range.baseLayer) (lev := 0) (i := s.layout)
    (w := srcState) G hC hf ht (show Layout.transferSrc ≠ Layout.undefined by decide) (Or.inr h0)
  simp only at b
  rw [e]
  obtain ⟨G1, ⟨t, c1, c2, -⟩, -, -⟩ := b
  have := G1.mirrors v.image.id a v.range.baseLayer 0 (by rw [← hf]; exact ha)
  rw [c1] at this
  rw [this, c2]; rfl

/-- **Negation**: the number of layers of the view is taken literally, hence with VK_REMAINING_ARRAY_LAYERS (or any
view of more layers than the image has) a blit of a layer the image doesn't have is expected, and recorded. -/
theorem remaining_layers_overrun (env : Env) (fmt : Nat → Nat) (g0 : Layouts) (S : GraphSt) (v : View) (ty : ViewType)
    (next : LayoutState) (r : Rec) (G : Good fmt g0 (Cells v) r) (hf : v.image.format = fmt v.image.id) (ht : ty ≠ .d3)
    (hv : v.viewType ≠ .d3) (hn : next.layout ≠ Layout.undefined) (hm : 2 ≤ v.image.mipLevels)
    (h0 : ∀ layer, v.range.baseLayer ≤ layer → layer < v.range.baseLayer + v.range.layers →
      r.ctx.images.at v.image.id layer 0 ≠ none)
    (layer : Nat) (hb : v.range.baseLayer ≤ layer) (hl : layer < v.range.baseLayer + v.range.layers)
    (ho : v.image.arrayLayers ≤ layer) :
    downscale v.image layer 0 ∈ (generate env S v ty next r).cmds := by
  have := (mipmaps_generated_partial env fmt g0 S v ty next r G hf ht hv hn hm h0).2.1
  have hmem : downscale v.image layer 0 ∈ work (generate env S v ty next r).cmds := by
    rw [this]
    refine List.mem_append_right _ (List.mem_flatMap.mpr ⟨layer, ?_, List.mem_map.mpr ⟨0, ?_, rfl⟩⟩)
    · rw [List.mem_range'_1]; exact ⟨hb, hl⟩
    · rw [List.mem_range]; omega
  exact (List.mem_filter.mp hmem).1

/-- **C53** (partial: when the layout given to the pass is the one the graph announces; see `output_layout_ignored`).
Every level ends in the output layout given to the pass. -/
theorem output_layout_partial (env : Env) (fmt : Nat → Nat) (g0 : Layouts) (S : GraphSt) (p : RunPass) (v : View)
    (ty : ViewType) (output : LayoutState) (r : Rec) (G : Good fmt g0 (Cells v) r) (hf : v.image.format = fmt v.image.id)
    (ht : ty ≠ .d3) (hv : v.viewType ≠ .d3) (hn : output.layout ≠ Layout.undefined) (hm : 2 ≤ v.image.mipLevels)
    (h0 : ∀ layer, v.range.baseLayer ≤ layer → layer < v.range.baseLayer + v.range.layers →
      r.ctx.images.at v.image.id layer 0 ≠ none)
    (ho : (getNextLayoutState env.sepDS S r.ctx p v).layout = output.layout) :
    ∀ a layer l, HasAspect v.image.format a → v.range.baseLayer ≤ layer →
      layer < v.range.baseLayer + v.range.layers → l < v.image.mipLevels →
      execAll g0 (generateMipmaps env S p output v ty r).cmds v.image.id a layer l = output.layout := by
  have := (mipmaps_generated_partial env fmt g0 S v ty (getNextLayoutState env.sepDS S r.ctx p v) r G hf ht hv
    (by rw [ho]; exact hn) hm h0).2.2.1
  intro a layer l h1 h2 h3 h4
  rw [← ho]; exact this a layer l h1 h2 h3 h4

/-- **Negation**: whenever the graph announces another layout than the one given to the pass, no level of any layer
ends in the latter (`getNextLayoutState` alone decides). -/
theorem output_layout_ignored (env : Env) (fmt : Nat → Nat) (g0 : Layouts) (S : GraphSt) (p : RunPass) (v : View)
    (ty : ViewType) (output : LayoutState) (r : Rec) (G : Good fmt g0 (Cells v) r) (hf : v.image.format = fmt v.image.id)
    (ht : ty ≠ .d3) (hv : v.viewType ≠ .d3) (hm : 2 ≤ v.image.mipLevels)
    (h0 : ∀ layer, v.range.baseLayer ≤ layer → layer < v.range.baseLayer + v.range.layers →
      r.ctx.images.at v.image.id layer 0 ≠ none)
    (hn : (getNextLayoutState env.sepDS S r.ctx p v).layout ≠ Layout.undefined)
    (ho : (getNextLayoutState env.sepDS S r.ctx p v).layout ≠ output.layout) :
    ∀ a layer l, HasAspect v.image.format a → v.range.baseLayer ≤ layer →
      layer < v.range.baseLayer + v.range.layers → l < v.image.mipLevels →
      execAll g0 (generateMipmaps env S p output v ty r).cmds v.image.id a layer l ≠ output.layout := by
  have := (mipmaps_generated_partial env fmt g0 S v ty (getNextLayoutState env.sepDS S r.ctx p v) r G hf ht hv
    hn hm h0).2.2.1
  intro a layer l h1 h2 h3 h4
  rw [show generateMipmaps env S p output v ty r = generate env S v ty (getNextLayoutState env.sepDS S r.ctx p v) r
    from rfl, this a layer l h1 h2 h3 h4]
  exact ho

/-! Non-vacuity: for the image above, with the output SHADER_READ_ONLY declared to the graph, that is announced. -/

def exGraph : GraphSt := ⟨LayoutMap.empty, Images.set [] exView (makeLayoutState Layout.shaderReadOnly), Ctx.new⟩
def exPass : RunPass := ⟨0, 1, false, ⟨0, 0⟩, [], [], [], fun _ r => r⟩

theorem example_announced (env : Env) :
    (getNextLayoutState env.sepDS exGraph (exRec env).ctx exPass exView).layout = Layout.shaderReadOnly := by
  have h : ∀ b : Bool, (getNextLayoutState b exGraph Ctx.new exPass exView).layout = Layout.shaderReadOnly := by decide
  have hn : (exRec env).ctx.nextImages = Ctx.new.nextImages := by
    obtain ⟨src, -, ⟨-, e⟩ | ⟨-, e⟩⟩ :=
      imageBarrier_cases env start exQ.img exQ.vt exQ.sub exQ.initial exQ.wanted exQ.force
    · have : exRec env = _ := e
      rw [this]; rfl
    · have : exRec env = _ := e
      rw [this]; rfl
  have := h env.sepDS
  simp only [getNextLayoutState] at this ⊢
  rw [hn]; exact this

end Verif.Mip
