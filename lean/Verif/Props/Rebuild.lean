import Verif.Props.RenderPass
/-
C74: when nothing changed, a render pass made for an earlier recording is used again, unless a target the pass only
writes is already tracked.
-/
namespace Verif.RPass
open Verif.Rec Verif.Att Verif.Run Verif.Gpu

variable {sepDS : Bool} {fmt : Nat → Nat} {V : View → Prop} {passes : List RunPass} {G : GraphSt}

/-- The state of a view is a matter of the states of its subresources. -/
theorem getState_agrees {m m' : LayoutMap} {v : View}
    (h : ∀ l k, (getVirtualRange v.image v.viewType v.range).Has l k → m.at v.image.id l k = m'.at v.image.id l k) :
    m.getState v.image v.viewType v.range = m'.getState v.image v.viewType v.range
    ∨ ((m.getState v.image v.viewType v.range).layout = Layout.undefined
      ∧ (m'.getState v.image v.viewType v.range).layout = Layout.undefined) := by
  by_cases hn : ∀ l k, (getVirtualRange v.image v.viewType v.range).Has l k → m.at v.image.id l k = none
  · right
    exact ⟨getState_none hn, getState_none fun l k hl => by rw [← h l k hl]; exact hn l k hl⟩
  · left
    have hx : ∃ l k, (getVirtualRange v.image v.viewType v.range).Has l k ∧ m.at v.image.id l k ≠ none := by
      apply Classical.byContradiction
      intro hno
      exact hn fun l k hl => Classical.byContradiction fun hc => hno ⟨l, k, hl, hc⟩
    obtain ⟨l, k, hl, hne⟩ := hx
    have hne' : m'.at v.image.id l k ≠ none := by rw [← h l k hl]; exact hne
    unfold LayoutMap.at at hne hne' h
    unfold LayoutMap.getState
    cases hx : m v.image.id with
    | none => simp [hx] at hne
    | some x =>
      cases hy : m' v.image.id with
      | none => simp [hy] at hne'
      | some y =>
        simp only [hx, hy] at h ⊢
        have : foundStates x (getVirtualRange v.image v.viewType v.range)
            = foundStates y (getVirtualRange v.image v.viewType v.range) := by
          unfold foundStates
          generalize hr : getVirtualRange v.image v.viewType v.range = r at h
          have hrow : ∀ i ∈ List.range r.layers,
              ((List.range r.levels).filterMap fun v => x (r.baseLayer + i) (r.baseMip + v))
              = ((List.range r.levels).filterMap fun v => y (r.baseLayer + i) (r.baseMip + v)) := by
            intro i hi
            apply filterMap_congr'
            intro j hj
            rw [List.mem_range] at hi hj
            exact h _ _ (by unfold Range.Has; omega)
          rw [List.flatMap_def, List.flatMap_def, List.map_congr_left hrow]
        unfold getSubresourceRangeLayout
        rw [this]

theorem differ_self (s : LayoutState) : differ s s = false := by simp [differ]

/-- Giving an object a size changes nothing else. -/
theorem area_prev {w h : Nat} {p : RunPass} {o o' : PassObj} (e : area w h p o = some o') :
    o'.prev = o.prev ∧ o'.next = o.next := by
  have : ∀ (as : List Attachment) (o o' : PassObj), foldOpt areaOne o as = some o' → o'.prev = o.prev ∧ o'.next = o.next := by
    intro as
    induction as with
    | nil => intro o o' e; simp only [foldOpt, Option.some.injEq] at e; subst e; exact ⟨rfl, rfl⟩
    | cons a as ih =>
      intro o o' e
      unfold foldOpt at e
      cases e1 : areaOne o a with
      | none => rw [e1] at e; simp at e
      | some o1 =>
        rw [e1] at e
        have h1 : o1.prev = o.prev ∧ o1.next = o.next := by
          unfold areaOne at e1
          split at e1
          · obtain ⟨v, -, rfl⟩ := Option.map_eq_some_iff.1 e1
            exact ⟨rfl, rfl⟩
          · simp only [Option.some.injEq] at e1; subst e1; exact ⟨rfl, rfl⟩
        obtain ⟨i1, i2⟩ := ih o1 o' e
        exact ⟨i1.trans h1.1, i2.trans h1.2⟩
  exact this p.images { o with width := w, height := h, layers := 1 } o' e

/-- The entries of a new object, target by target. -/
theorem new_entries (hT : TidyViews sepDS fmt V passes) {p : RunPass} (hp : p ∈ passes) {index w h : Nat} {c c' : Ctx}
    {o : PassObj} (e : initialise sepDS G w h p index none c = some (o, true, c')) :
    ∃ ts, Targets p index ts ∧ o.entries = ts.map (entryOf sepDS G c p) ∧ o.prev = c.prev ∧ o.next = c.next := by
  obtain ⟨o1, o2, e1, e2, e3⟩ := initialise_new e
  obtain ⟨us, u1, u2, -, -, -, u6⟩ := createAll_ctx hT hp p.images (fun _ h => h) (hT.apart p hp index) _ _ _ _ e1
  obtain ⟨-, a2, -⟩ := area_keeps e2
  obtain ⟨b1, b2⟩ := area_prev e2
  unfold framebuffer at e3
  rw [mapM_views us _ u1 u2] at e3
  simp only [Option.map_some, Option.some.injEq] at e3
  subst e3
  refine ⟨us, ⟨u1, u2⟩, ?_, b1, b2⟩
  simp only [a2, u6]
  rfl

/-- The recording tracks a layout of the view. -/
def Tracks (c : Ctx) (v : View) : Prop := (c.images.getState v.image v.viewType v.range).layout ≠ Layout.undefined

/-- C74: a render pass made in a context is used again in another one in which nothing changed (same tracked
states of its targets, same pipeline states around the pass) exactly when none of the targets the pass only writes is
tracked. -/
theorem unchanged_kept_iff (hT : TidyViews sepDS fmt V passes) {p : RunPass} (hp : p ∈ passes) {index w h : Nat}
    {c c1 : Ctx} {o : PassObj} (e : initialise sepDS G w h p index none c = some (o, true, c1))
    (G' : GraphSt) (c' : Ctx)
    (hsame : ∀ a ∈ p.images, isTarget a = true → ∀ v, a.img.view index = some v → ∀ l m, v.range.Has l m →
      c'.images.at v.image.id l m = c.images.at v.image.id l m)
    (hprev : c'.prev = c.prev) (hnext : c'.next = c.next) :
    initialise sepDS G' w h p index (some o) c' = some (o, false, c')
    ↔ ∀ a ∈ p.images, isTarget a = true → a.isInput = false → ∀ v, a.img.view index = some v → ¬ Tracks c' v := by
  obtain ⟨ts, hts, hen, h1, h2⟩ := new_entries hT hp e
  have hmem : ∀ a v, (a, v) ∈ ts ↔ a ∈ p.images ∧ isTarget a = true ∧ a.img.view index = some v := by
    intro a v
    constructor
    · intro hav
      have h3 : a ∈ p.images.filter isTarget := by rw [← hts.all]; exact List.mem_map_of_mem (f := (·.1)) hav
      exact ⟨(List.mem_filter.1 h3).1, (List.mem_filter.1 h3).2, hts.view _ hav⟩
    · rintro ⟨h3, h4, h5⟩
      have h6 : a ∈ ts.map (·.1) := by rw [hts.all]; exact List.mem_filter.2 ⟨h3, h4⟩
      obtain ⟨⟨b, u⟩, hb, rfl⟩ := List.mem_map.1 h6
      have h7 := hts.view _ hb
      rw [h5] at h7
      cases h7
      exact hb
  have hcheck : checkAttaches c' o.entries = true
      ↔ ∀ a ∈ p.images, isTarget a = true → a.isInput = false → ∀ v, a.img.view index = some v → ¬ Tracks c' v := by
    unfold checkAttaches
    simp only [Bool.not_eq_true', List.any_eq_false, Bool.and_eq_true, not_and, bne_iff_ne]
    rw [hen]
    constructor
    · intro hk a ha ht hi v hv htr
      have h3 := hk _ (List.mem_map_of_mem (f := entryOf sepDS G c p) ((hmem a v).2 ⟨ha, ht, hv⟩))
      simp only [entryOf, hi, Bool.not_false, if_true] at h3
      refine h3 ?_ htr
      unfold differ
      simp only [Bool.or_eq_true, bne_iff_ne]
      exact Or.inl (Or.inl htr)
    · intro hk en hen hd htr
      obtain ⟨⟨a, v⟩, hav, rfl⟩ := List.mem_map.1 hen
      obtain ⟨ha, ht, hv⟩ := (hmem a v).1 hav
      cases hi : a.isInput with
      | false => exact hk a ha ht hi v hv htr
      | true =>
        simp only [entryOf, hi, Bool.not_true, Bool.false_eq_true, if_false] at hd htr
        have hV := (hT.attached v ⟨p, hp, a, ha, view_mem hv⟩).1
        have hpl := virtual_plain v.image v.range (hT.tidy.view v hV)
        rcases getState_agrees (m := c'.images) (m' := c.images) (v := v)
            (fun l k hl => hsame a ha ht v hv l k (by rw [hpl] at hl; exact hl)) with h3 | ⟨h3, -⟩
        · have h4 := (current_lookup G c v).1 (by rw [← h3]; exact htr)
          rw [h4, h3, differ_self] at hd
          simp at hd
        · exact htr h3
  unfold initialise
  simp only
  rw [← hcheck]
  have hpn : (o.prev == c'.prev && o.next == c'.next) = true := by
    rw [h1, h2, hprev, hnext]; simp
  rw [hpn, Bool.and_true]
  constructor
  · intro hk
    apply Classical.byContradiction
    intro hno
    rw [if_neg hno] at hk
    have : initialise sepDS G' w h p index none c' = some (o, false, c') := by
      unfold initialise
      exact hk
    rcases initialise_cases this with ⟨-, h3, -⟩ | ⟨h3, -⟩
    · simp at h3
    · simp at h3
  · intro hk
    rw [if_pos hk]

/-- The object made last never matters to a pass that only writes an image the recording tracks: it makes a new render
pass every time. -/
theorem written_tracked_rebuilt {p : RunPass} (hD : Declares sepDS p) {index w h : Nat} {o o' : PassObj} {c c' : Ctx} {b : Bool}
    (hm : MadeFor sepDS p index o) {a : Attachment} (ha : a ∈ p.images) (ht : isTarget a = true) (hi : a.isInput = false)
    {v : View} (hv : a.img.view index = some v) (htr : Tracks c v)
    (e : initialise sepDS G w h p index (some o) c = some (o', b, c')) : b = true := by
  obtain ⟨ts, hts, ho⟩ := parts_correspond hD hm
  have h6 : a ∈ ts.map (·.1) := by rw [hts.all]; exact List.mem_filter.2 ⟨ha, ht⟩
  obtain ⟨⟨a1, u⟩, hb, rfl⟩ := List.mem_map.1 h6
  have h7 := hts.view _ hb
  rw [hv] at h7
  cases h7
  obtain ⟨k, hk⟩ := List.getElem?_of_mem hb
  obtain ⟨en, d, he, -, hview, -, -, -, -, -, -, -, hund, -⟩ := ho.at' k _ hk
  cases b with
  | true => rfl
  | false =>
    obtain ⟨hc, -, -, -, hall⟩ := reuse_fits_tracked e
    cases hc
    have h8 := (hall en (List.mem_of_getElem? he) (by rw [hview]; exact htr)).1
    rw [hund hi, hview] at h8
    exact absurd h8 htr

/-! ### In frames -/

/-- Whether the pass `p`, at position `k`, makes a new render pass in the second of two identical frames, and the two
objects it has. -/
def rebuilt (G : GraphSt) (ps : GraphSt → Option PassObj → List RunPass) (k : Nat) (p : RunPass) :
    Option (Bool × PassObj × PassObj) :=
  (frameOf G (ps G none) fun _ => true).bind fun x =>
    (objectIn G (ps G none) (fun _ => true) k p none).bind fun o =>
      (enteredRec ⟨false, fun _ => true⟩ x.1 (fun _ => 0) (ps x.1 (some o)) (frame0 (ps x.1 (some o))) k).bind fun r =>
        (initialise false x.1 64 64 p 0 (some o) r.ctx).map fun y => (y.2.1, o, y.1)

/-- A pass that draws to an image a later pass samples keeps its render pass. -/
theorem drawn_then_sampled_kept : (rebuilt xG bPasses 0 aFirst).map (fun x => (x.1, decide (x.2.1 = x.2.2))) = some (false, true) := by
  decide

/-- A pass that samples the image, then one that draws over it. -/
def eSample : RunPass := drawPass 1 [ImageAdder.sampled.attach 1 0 [xView]]
def eDraw : RunPass := drawPass 2 [ImageAdder.outputColour.attach 2 0 [xView]]
def ePasses (G : GraphSt) (o : Option PassObj) : List RunPass := [eSample, RunPass.drawing false G eDraw o [1]]

/-- C74 fails: a pass that draws over an image an earlier pass samples makes a new render pass, equal to the one it
has, in every frame. -/
theorem sampled_then_drawn_rebuilt : (rebuilt xG ePasses 1 eDraw).map (fun x => (x.1, decide (x.2.1 = x.2.2))) = some (true, true) := by
  decide

/-- The hypotheses of `unchanged_kept_iff` are met by those frames: the object is made in a context, and entered again in one
that tracks the same of its target. -/
example : ∃ o c c1, initialise false xG 64 64 aFirst 0 none c = some (o, true, c1)
    ∧ initialise false xG 64 64 aFirst 0 (some o) c = some (o, false, c)
    ∧ ∀ a ∈ aFirst.images, isTarget a = true → a.isInput = false → ∀ v, a.img.view 0 = some v → ¬ Tracks c v := by
  have hT : TidyViews false (fun _ => 37) xV (aPasses xG none) := aPasses_tidy xG none
  have hx : ∃ oc, initialise false xG 64 64 aFirst 0 none Ctx.new = some oc ∧ oc.2.1 = true := by
    have h : ((initialise false xG 64 64 aFirst 0 none Ctx.new).map fun x => x.2.1) = some true := by decide
    exact Option.map_eq_some_iff.1 h
  obtain ⟨⟨o, b, c1⟩, e, hb⟩ := hx
  cases hb
  have hp : RunPass.drawing false xG aFirst none [1] ∈ aPasses xG none := by simp [aPasses]
  have hk : ∀ a ∈ aFirst.images, isTarget a = true → a.isInput = false → ∀ v, a.img.view 0 = some v → ¬ Tracks Ctx.new v := by
    intro a _ _ _ v _ h
    exact h rfl
  exact ⟨o, _, c1, e, (unchanged_kept_iff (p := RunPass.drawing false xG aFirst none [1]) hT hp e xG Ctx.new
    (fun _ _ _ _ _ _ _ _ => rfl) rfl rfl).2 hk, hk⟩

end Verif.RPass
