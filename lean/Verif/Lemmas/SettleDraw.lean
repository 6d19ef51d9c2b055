import Verif.Lemmas.SettlePass
/-
Drawing, as a step (Lemmas/Settle.lean).
-/
namespace Verif.Settle
open Verif.Rec Verif.Att Verif.Run Verif.Gpu Verif.RPass

variable {sepDS : Bool} {fmt : Nat → Nat} {V : View → Prop} {passes : List RunPass} {inp : LayoutMap} {out : Images}
  {base : Nat → Prop} {nx : LayoutMap}

/-- A context got from another by setting the states of some views. -/
inductive Sets (W : View → Prop) : Ctx → Ctx → Prop
  | refl (c : Ctx) : Sets W c c
  | set {c c' : Ctx} {v : View} (s : LayoutState) : Sets W c c' → W v → Sets W c (c'.setLayout v.image v.viewType v.range s)

theorem Sets.trans {W : View → Prop} {a b c : Ctx} (h : Sets W a b) (h' : Sets W b c) : Sets W a c := by
  induction h' with
  | refl => exact h
  | set s _ hw ih => exact .set s ih hw

theorem Sets.rest {W : View → Prop} {a b : Ctx} (h : Sets W a b) : Settle.rest b = Settle.rest a := by
  induction h with
  | refl => rfl
  | set s _ hw ih => exact ih

theorem Sets.mono {W : View → Prop} {a b : Ctx} (h : Sets W a b) (i : Nat) : (a.images i).isSome = true → (b.images i).isSome = true := by
  induction h with
  | refl => exact id
  | set s _ hw ih =>
    intro h
    have := ih h
    simp only [Ctx.setLayout, LayoutMap.setState]
    split
    · rfl
    · exact this

theorem Sets.same {W : View → Prop} {a b : Ctx} (h : Sets W a b) {i : Nat} (hi : ∀ v, W v → i ≠ v.image.id) : b.images i = a.images i := by
  induction h with
  | refl => rfl
  | set s _ hw ih =>
    simp only [Ctx.setLayout, LayoutMap.setState]
    rw [if_neg (hi _ hw)]
    exact ih

theorem Sets.cells {W : View → Prop} {a b : Ctx} (h : Sets W a b) {i l m : Nat}
    (hi : ∀ v, W v → ¬ (i = v.image.id ∧ (getVirtualRange v.image v.viewType v.range).Has l m)) :
    b.images.at i l m = a.images.at i l m := by
  induction h with
  | refl => rfl
  | set s _ hw ih =>
    simp only [Ctx.setLayout, LayoutMap.at_setState]
    rw [if_neg (hi _ hw)]
    exact ih

theorem sets_current {W : View → Prop} (G : GraphSt) (c : Ctx) {v : View} (hw : W v) : Sets W c (getCurrentLayoutState G c v).2 := by
  unfold getCurrentLayoutState
  simp only
  generalize c.images.getState v.image v.viewType v.range = x
  generalize G.inputs.getState v.image v.viewType v.range = y
  generalize G.final.images.getState v.image v.viewType v.range = z
  have h1 : Sets W c (if x.layout = Layout.undefined then
      if y.layout ≠ Layout.undefined then (y, c.setLayout v.image v.viewType v.range y) else (y, c) else (x, c)).2 := by
    split
    · split
      · exact .set _ (.refl c) hw
      · exact .refl c
    · exact .refl c
  generalize (if x.layout = Layout.undefined then
      if y.layout ≠ Layout.undefined then (y, c.setLayout v.image v.viewType v.range y) else (y, c) else (x, c)) = k at h1
  split
  · split
    · exact .set _ h1 hw
    · exact h1
  · exact h1

theorem sets_create {W : View → Prop} {G : GraphSt} {p : RunPass} {index : Nat} : ∀ (as : List Attachment),
    (∀ a ∈ as, isTarget a = true → ∀ v, a.img.view index = some v → W v) → ∀ (o o' : PassObj) (c c' : Ctx),
    RPass.foldOpt (createOne sepDS G p index) (o, c) as = some (o', c') → Sets W c c' := by
  intro as
  induction as with
  | nil =>
    intro _ o o' c c' e
    simp only [RPass.foldOpt, Option.some.injEq, Prod.mk.injEq] at e
    rw [← e.2]
    exact .refl c
  | cons a as ih =>
    intro hW o o' c c' e
    unfold RPass.foldOpt at e
    cases e1 : createOne sepDS G p index (o, c) a with
    | none => rw [e1] at e; simp at e
    | some oc =>
      obtain ⟨o1, c1⟩ := oc
      rw [e1] at e
      refine Sets.trans ?_ (ih (fun b hb => hW b (by simp [hb])) o1 o' c1 c' e)
      by_cases ht : isTarget a = true
      · cases hv : a.img.view index with
        | none => simp [createOne, ht, hv] at e1
        | some v =>
          have hw := hW a (by simp) ht v hv
          unfold createOne at e1
          simp only [ht, if_true, hv] at e1
          have h1 := sets_current G c hw
          split at e1
          · simp only [addAttach, Option.some.injEq, Prod.mk.injEq] at e1
            rw [← e1.2]
            exact .set _ h1 hw
          · simp only [addAttach, Option.some.injEq, Prod.mk.injEq] at e1
            rw [← e1.2]
            exact .set _ h1 hw
      · simp only [createOne, ht] at e1
        simp only [Bool.false_eq_true, if_false, Option.some.injEq, Prod.mk.injEq] at e1
        rw [← e1.2]
        exact .refl c

theorem sets_entries {W : View → Prop} (f : Entry → LayoutState) : ∀ (es : List Entry), (∀ e ∈ es, W e.view) → ∀ (c : Ctx),
    Sets W c (es.foldl (fun (c : Ctx) (e : Entry) => c.setLayout e.view.image e.view.viewType e.view.range (f e)) c) := by
  intro es
  induction es with
  | nil => intro _ c; exact .refl c
  | cons e es ih =>
    intro h c
    exact Sets.trans (.set _ (.refl c) (h e (by simp))) (ih (fun x hx => h x (by simp [hx])) _)

/-! ### A pass that is entered draws -/

theorem view_zero {a : ImgAttach} {i : Nat} {v : View} (h : a.view i = some v) : ∃ w, a.view 0 = some w := by
  unfold ImgAttach.view at h ⊢
  split at h
  · rename_i hl
    simp only [hl, if_true]
    exact ⟨v, h⟩
  · rename_i hl
    simp only [hl]
    cases hx : a.views with
    | nil => rw [hx] at h; simp at h
    | cons x xs => exact ⟨x, by simp⟩

theorem area_some {w h : Nat} {p : RunPass} (hv : ∀ a ∈ p.images, ∃ v, a.img.view 0 = some v) (o : PassObj) :
    ∃ o', area w h p o = some o' := by
  have key : ∀ (as : List Attachment), (∀ a ∈ as, ∃ v, a.img.view 0 = some v) → ∀ o, ∃ o', RPass.foldOpt areaOne o as = some o' := by
    intro as
    induction as with
    | nil => intro _ o; exact ⟨o, rfl⟩
    | cons a as ih =>
      intro h o
      obtain ⟨v, hv⟩ := h a (by simp)
      have : ∃ o1, areaOne o a = some o1 := by
        unfold areaOne
        split
        · rw [hv]; exact ⟨_, rfl⟩
        · exact ⟨_, rfl⟩
      obtain ⟨o1, e1⟩ := this
      obtain ⟨o2, e2⟩ := ih (fun b hb => h b (by simp [hb])) o1
      exact ⟨o2, by simp only [RPass.foldOpt, e1, e2]⟩
  exact key _ hv _

theorem create_some {G : GraphSt} {p : RunPass} {index : Nat} : ∀ (as : List Attachment), (∀ a ∈ as, ∃ v, a.img.view index = some v) →
    ∀ oc, ∃ oc', RPass.foldOpt (createOne sepDS G p index) oc as = some oc' := by
  intro as
  induction as with
  | nil => intro _ oc; exact ⟨oc, rfl⟩
  | cons a as ih =>
    intro h oc
    obtain ⟨v, hv⟩ := h a (by simp)
    have : ∃ o1, createOne sepDS G p index oc a = some o1 := by
      unfold createOne
      split
      · rw [hv]
        simp only
        split <;> exact ⟨_, rfl⟩
      · exact ⟨_, rfl⟩
    obtain ⟨o1, e1⟩ := this
    obtain ⟨o2, e2⟩ := ih (fun b hb => h b (by simp [hb])) o1
    exact ⟨o2, by simp only [RPass.foldOpt, e1, e2]⟩

theorem targets_exist {p : RunPass} {index : Nat} (hv : ∀ a ∈ p.images, ∃ v, a.img.view index = some v) :
    ∃ ts, Targets p index ts := by
  have key : ∀ (as : List Attachment), (∀ a ∈ as, ∃ v, a.img.view index = some v) →
      ∃ ts : List (Attachment × View), ts.map (·.1) = as ∧ ∀ av ∈ ts, av.1.img.view index = some av.2 := by
    intro as
    induction as with
    | nil => intro _; exact ⟨[], rfl, by simp⟩
    | cons a as ih =>
      intro h
      obtain ⟨v, hv⟩ := h a (by simp)
      obtain ⟨ts, h1, h2⟩ := ih fun b hb => h b (by simp [hb])
      refine ⟨(a, v) :: ts, by simp [h1], ?_⟩
      intro av hav
      rcases List.mem_cons.1 hav with rfl | hav
      · exact hv
      · exact h2 av hav
  obtain ⟨ts, h1, h2⟩ := key (p.images.filter isTarget) fun a ha => hv a (List.mem_filter.1 ha).1
  exact ⟨ts, h1, h2⟩

theorem fresh_some {G : GraphSt} {w h : Nat} {p : RunPass} {index : Nat} (hv : ∀ a ∈ p.images, ∃ v, a.img.view index = some v)
    (c : Ctx) : ∃ o c', initialise sepDS G w h p index none c = some (o, true, c') := by
  obtain ⟨ts, hts⟩ := targets_exist hv
  obtain ⟨oc, e1⟩ := create_some (sepDS := sepDS) (G := G) (p := p) (index := index) p.images hv ({}, c)
  have hv0 : ∀ a ∈ p.images, ∃ v, a.img.view 0 = some v := fun a ha => by
    obtain ⟨v, h⟩ := hv a ha
    exact view_zero h
  obtain ⟨o2, e2⟩ := area_some (w := w) (h := h) hv0 { oc.1 with prev := c.prev, next := c.next, deps := dependencies c.prev c.next }
  refine ⟨{ o2 with views := ts.map (·.2) }, oc.2, ?_⟩
  unfold initialise
  simp only [create, e1, Option.map_some, Option.bind_some, e2, framebuffer]
  rw [mapM_views ts _ hts.all hts.view]
  rfl

theorem recordPass_some {G : GraphSt} {w h : Nat} {p : RunPass} {index : Nat} (hv : ∀ a ∈ p.images, ∃ v, a.img.view index = some v)
    (cached : Option PassObj) (draw : List Nat) (r : Rec) : ∃ x, recordPass sepDS G w h p cached draw index r = some x := by
  obtain ⟨o, c', e⟩ := fresh_some (sepDS := sepDS) (G := G) (w := w) (h := h) hv r.ctx
  have : ∃ x, initialise sepDS G w h p index cached r.ctx = some x := by
    cases cached with
    | none => exact ⟨_, e⟩
    | some o1 =>
      unfold initialise at e ⊢
      simp only at e ⊢
      split
      · exact ⟨_, rfl⟩
      · exact ⟨_, e⟩
  obtain ⟨x, hx⟩ := this
  unfold recordPass
  rw [hx]
  exact ⟨_, rfl⟩

/-! ### What drawing does to what is tracked -/

/-- The state a target is left in. -/
def nextOf (sepDS : Bool) (out : Images) (nx : LayoutMap) (p : RunPass) (v : View) : LayoutState :=
  getNextLayoutState sepDS ⟨LayoutMap.empty, out, Ctx.new⟩ { Ctx.new with nextImages := nx } p v

theorem nextOf_eq {G : GraphSt} {c : Ctx} (hG : G.outputs = out) (hc : c.nextImages = nx) (p : RunPass) (v : View) :
    getNextLayoutState sepDS G c p v = nextOf sepDS out nx p v := by
  unfold nextOf getNextLayoutState
  simp only [hG, hc]

/-- The object leaves its targets in the states announced. -/
def Outs (sepDS : Bool) (out : Images) (nx : LayoutMap) (p : RunPass) (index : Nat) (o : PassObj) : Prop :=
  ∃ ts, Targets p index ts
    ∧ o.entries.map (fun (e : Entry) => (e.view, e.output)) = ts.map (fun (av : Attachment × View) => (av.2, nextOf sepDS out nx p av.2))

open Classical in
/-- The dependencies after drawing. -/
noncomputable def drawTr (sepDS : Bool) (out : Images) (nx : LayoutMap) (p : RunPass) (ts : List (Attachment × View)) (T : Map) : Map :=
  fun i l m => match ts.find? (fun (av : Attachment × View) => decide (i = av.2.image.id ∧ av.2.range.Has l m)) with
    | some av => .is (some (nextOf sepDS out nx p av.2))
    | none => T i l m

theorem targets_mem {p : RunPass} {index : Nat} {ts : List (Attachment × View)} (h : Targets p index ts) {av : Attachment × View}
    (hav : av ∈ ts) : av.1 ∈ p.images ∧ isTarget av.1 = true ∧ av.1.img.view index = some av.2 := by
  have h3 : av.1 ∈ p.images.filter isTarget := by rw [← h.all]; exact List.mem_map_of_mem (f := (·.1)) hav
  exact ⟨(List.mem_filter.1 h3).1, (List.mem_filter.1 h3).2, h.view _ hav⟩

theorem drawTr_in (hT : TidyViews sepDS fmt V passes) {p : RunPass} (hp : p ∈ passes) {index : Nat}
    {ts : List (Attachment × View)} (h : Targets p index ts) (T : Map) {av : Attachment × View} (hav : av ∈ ts) {l m : Nat}
    (hl : av.2.range.Has l m) :
    drawTr sepDS out nx p ts T av.2.image.id l m = .is (some (nextOf sepDS out nx p av.2)) := by
  unfold drawTr
  cases hf : ts.find? (fun (bw : Attachment × View) => decide (av.2.image.id = bw.2.image.id ∧ bw.2.range.Has l m)) with
  | none =>
    have := List.find?_eq_none.1 hf av hav
    simp [hl] at this
  | some bw =>
    have h1 := List.find?_some hf
    simp only [decide_eq_true_eq] at h1
    obtain ⟨j, hj⟩ := List.getElem?_of_mem hav
    obtain ⟨k, hk⟩ := List.getElem?_of_mem (List.mem_of_find?_eq_some hf)
    have := target_unique hT hp h hj hk h1.1 hl h1.2
    subst this
    rw [hj] at hk
    cases hk
    rfl

theorem drawTr_out {p : RunPass} {ts : List (Attachment × View)} (T : Map) {i l m : Nat}
    (h : ∀ av ∈ ts, ¬ (i = av.2.image.id ∧ av.2.range.Has l m)) : drawTr sepDS out nx p ts T i l m = T i l m := by
  unfold drawTr
  rw [List.find?_eq_none.2]
  intro av hav
  simp only [decide_eq_true_eq]
  exact h av hav

theorem ok_draw (hT : TidyViews sepDS fmt V passes) {p : RunPass} (hp : p ∈ passes) (hD : Declares sepDS p) {index : Nat}
    {ts : List (Attachment × View)} (h : Targets p index ts) {T : Map} (hO : Ok V inp T) :
    Ok V inp (drawTr sepDS out nx p ts T) := by
  have hV : ∀ av ∈ ts, V av.2 := fun av hav => by
    obtain ⟨h1, h2, h3⟩ := targets_mem h hav
    exact (hT.attached av.2 ⟨p, hp, av.1, h1, view_mem h3⟩).1
  refine ⟨?_, ?_⟩
  · intro u hu
    by_cases hs : ∃ av ∈ ts, View.Same u av.2
    · obtain ⟨av, hav, hs⟩ := hs
      refine ⟨.is (some (nextOf sepDS out nx p av.2)), ?_, ?_⟩
      · obtain ⟨h1, h2, h3⟩ := targets_mem h hav
        exact next_defined hD h1 (view_mem h3) _
      · intro l m hl
        rw [hs.1]
        exact drawTr_in hT hp h T hav ((hs.2 l m).1 hl)
    · obtain ⟨t, h1, h2⟩ := hO.uniform u hu
      refine ⟨t, h1, ?_⟩
      intro l m hl
      rw [drawTr_out]
      · exact h2 l m hl
      · rintro av hav ⟨h3, h4⟩
        rcases hT.tidy.apart u av.2 hu (hV av hav) with h5 | h5
        · rcases h5 with h5 | h5
          · exact h5 h3
          · exact h5 l m ⟨hl, h4⟩
        · exact hs ⟨av, hav, h5⟩
  · intro i l m hl
    by_cases hs : ∃ av ∈ ts, i = av.2.image.id ∧ av.2.range.Has l m
    · obtain ⟨av, hav, rfl, hs⟩ := hs
      rw [drawTr_in hT hp h T hav hs] at hl
      simp at hl
    · rw [drawTr_out _ fun av hav hc => hs ⟨av, hav, hc⟩] at hl
      exact hO.looked i l m hl

/-- Drawing, whatever object the pass has, as long as it was made for what is announced. -/
theorem sim_draw (hT : TidyViews sepDS fmt V passes) (hne : ∀ v, V v → v.range.NonEmpty) {p : RunPass} (hp : p ∈ passes)
    {index w h : Nat} {ts : List (Attachment × View)} (hts : Targets p index ts) {T : Map} {N : Ctx}
    (hN : NOk V nx N) {G : GraphSt} (hG : Cond V inp out G) {r r' : Rec} (hS : Sim base G.final.images T N r)
    {cached : Option PassObj} (hc : ∀ o, cached = some o → Outs sepDS out nx p index o) {draw : List Nat} {o : PassObj}
    (e : recordPass sepDS G w h p cached draw index r = some (o, r')) :
    Outs sepDS out nx p index o ∧ Sim base G.final.images (drawTr sepDS out nx p ts T) N r' := by
  have hV : ∀ av ∈ ts, V av.2 := fun av hav => by
    obtain ⟨h1, h2, h3⟩ := targets_mem hts hav
    exact (hT.attached av.2 ⟨p, hp, av.1, h1, view_mem h3⟩).1
  have hpl : ∀ av ∈ ts, ∀ l m, (getVirtualRange av.2.image av.2.viewType av.2.range).Has l m ↔ av.2.range.Has l m := by
    intro av hav l m
    rw [virtual_plain _ _ (hT.tidy.view _ (hV av hav))]
  have hnx : r.ctx.nextImages = nx := by
    rw [← hN.next, ← hS.rest]
    rfl
  unfold recordPass at e
  obtain ⟨⟨o1, b, c1⟩, e1, e2⟩ := Option.map_eq_some_iff.1 e
  simp only [Prod.mk.injEq] at e2
  obtain ⟨rfl, rfl⟩ := e2
  have h1 : Outs sepDS out nx p index o1 ∧ Sets (fun v => ∃ av ∈ ts, v = av.2) r.ctx c1 := by
    rcases initialise_cases e1 with ⟨-, hco, -, -, -, rfl⟩ | ⟨-, e3⟩
    · exact ⟨hc _ hco, .refl _⟩
    · refine ⟨?_, ?_⟩
      · obtain ⟨us, hu, hen, -, -⟩ := new_entries hT hp e3
        refine ⟨us, hu, ?_⟩
        rw [hen, List.map_map]
        apply List.map_congr_left
        intro av _
        simp only [Function.comp, entryOf, nextOf_eq hG.outputs hnx]
      · obtain ⟨x1, x2, e4, -, -⟩ := initialise_new e3
        refine sets_create p.images ?_ _ _ _ _ e4
        intro a ha ht v hv
        have h6 : a ∈ ts.map (·.1) := by rw [hts.all]; exact List.mem_filter.2 ⟨ha, ht⟩
        obtain ⟨⟨b, u⟩, hb, rfl⟩ := List.mem_map.1 h6
        have h7 := hts.view _ hb
        rw [hv] at h7
        cases h7
        exact ⟨_, hb, rfl⟩
  obtain ⟨ho, hs1⟩ := h1
  refine ⟨ho, ?_⟩
  obtain ⟨us, hus, hen⟩ := ho
  have hut : us = ts := targets_eq (p := p) (hus.all.trans hts.all.symm) hus.view hts.view
  subst hut
  have hent : ∀ en ∈ o1.entries, ∃ av ∈ us, en.view = av.2 ∧ en.output = nextOf sepDS out nx p av.2 := by
    intro en hmem
    have : (en.view, en.output) ∈ us.map (fun (av : Attachment × View) => (av.2, nextOf sepDS out nx p av.2)) := by
      rw [← hen]; exact List.mem_map_of_mem (f := fun (e : Entry) => (e.view, e.output)) hmem
    obtain ⟨av, hav, h2⟩ := List.mem_map.1 this
    simp only [Prod.mk.injEq] at h2
    exact ⟨av, hav, h2.1.symm, h2.2.symm⟩
  have hent' : ∀ av ∈ us, ∃ en ∈ o1.entries, en.view = av.2 := by
    intro av hav
    have : (av.2, nextOf sepDS out nx p av.2) ∈ o1.entries.map (fun (e : Entry) => (e.view, e.output)) := by
      rw [hen]; exact List.mem_map_of_mem (f := fun (av : Attachment × View) => (av.2, nextOf sepDS out nx p av.2)) hav
    obtain ⟨en, h1, h2⟩ := List.mem_map.1 this
    simp only [Prod.mk.injEq] at h2
    exact ⟨en, h1, h2.1⟩
  have hW : ∀ en ∈ o1.entries, ∃ av ∈ us, en.view = av.2 := fun en hmem => by
    obtain ⟨av, h1, h2, -⟩ := hent en hmem
    exact ⟨av, h1, h2⟩
  have hs2 := hs1.trans (sets_entries (fun (e : Entry) => e.input) o1.entries hW c1)
  generalize hc2 : (o1.entries.foldl (fun (c : Ctx) (e : Entry) => c.setLayout e.view.image e.view.viewType e.view.range e.input) c1) = c2 at hs2
  have hs3 := hs2.trans (sets_entries (fun (e : Entry) => e.output) o1.entries hW c2)
  have hr' : (endPass { (beginPass { r with ctx := c1 } o1) with cmds := (beginPass { r with ctx := c1 } o1).cmds ++ draw.map .user } o1).ctx
      = o1.entries.foldl (fun (c : Ctx) (e : Entry) => c.setLayout e.view.image e.view.viewType e.view.range e.output) c2 := by
    rw [← hc2]; rfl
  have hcell : ∀ av ∈ us, ∀ l m, av.2.range.Has l m →
      (o1.entries.foldl (fun (c : Ctx) (e : Entry) => c.setLayout e.view.image e.view.viewType e.view.range e.output) c2).images.at av.2.image.id l m
        = some (nextOf sepDS out nx p av.2) := by
    intro av hav l m hl
    refine (setAll_at (fun (e : Entry) => e.output) o1.entries c2 av.2.image.id l m).2 _ ?_ ?_
    · rintro en hmem ⟨h3, h4⟩
      obtain ⟨bw, hbw, h5, h6⟩ := hent en hmem
      rw [h5] at h3 h4
      rw [h6]
      obtain ⟨j, hj⟩ := List.getElem?_of_mem hav
      obtain ⟨k, hk⟩ := List.getElem?_of_mem hbw
      have := target_unique hT hp hts hj hk h3 hl ((hpl bw hbw l m).1 h4)
      subst this
      rw [hj] at hk
      cases hk
      rfl
    · obtain ⟨en, h3, h4⟩ := hent' av hav
      exact ⟨en, h3, by rw [h4], by rw [h4]; exact (hpl av hav l m).2 hl⟩
  have hpres := hS.present
  refine ⟨?_, ?_, ?_⟩
  · intro i l m
    rw [hr']
    by_cases hin : ∃ av ∈ us, i = av.2.image.id ∧ av.2.range.Has l m
    · obtain ⟨av, hav, rfl, hl⟩ := hin
      rw [hcell av hav l m hl, drawTr_in hT hp hts T hav hl]
      rfl
    · rw [drawTr_out _ fun av hav hx => hin ⟨av, hav, hx⟩, ← hS.cells]
      refine hs3.cells ?_
      rintro v ⟨av, hav, rfl⟩ ⟨h3, h4⟩
      exact hin ⟨av, hav, h3, (hpl av hav l m).1 h4⟩
  · intro i
    rw [hr']
    by_cases hin : ∃ av ∈ us, i = av.2.image.id
    · obtain ⟨av, hav, rfl⟩ := hin
      obtain ⟨l, m, hl⟩ := av.2.range.nonEmpty_iff.1 (hne _ (hV av hav))
      have h5 := hcell av hav l m hl
      generalize (o1.entries.foldl (fun (c : Ctx) (e : Entry) => c.setLayout e.view.image e.view.viewType e.view.range e.output) c2) = c3 at h5
      constructor
      · intro _
        exact Or.inr ⟨l, m, by rw [h5]; simp⟩
      · intro _
        unfold LayoutMap.at at h5
        cases hx : c3.images av.2.image.id with
        | none => rw [hx] at h5; simp at h5
        | some x => rfl
    · have h6 := hs3.same (i := i) (by rintro v ⟨av, hav, rfl⟩ h7; exact hin ⟨av, hav, h7⟩)
      generalize (o1.entries.foldl (fun (c : Ctx) (e : Entry) => c.setLayout e.view.image e.view.viewType e.view.range e.output) c2) = c3 at h6
      have h7 := hpres i
      unfold LayoutMap.at at h7 ⊢
      rw [h6]
      exact h7
  · rw [hr', hs3.rest]
    exact hS.rest

end Verif.Settle
