import Verif.Spec.RenderPass
import Verif.Props.Announce
/-
C37 and the other properties of render passes.
-/
namespace Verif.RPass
open Verif.Rec Verif.Att Verif.Run Verif.Gpu

/-! ### Creation -/

/-- Whatever the context, the parts of the object made so far correspond to the targets seen so far. -/
theorem createOne_corresponds {sepDS : Bool} {G : GraphSt} {p : RunPass} {index : Nat} {o o' : PassObj} {c c' : Ctx}
    {a : Attachment} {ts : List (Attachment × View)} (hc : ∀ v c, a.img.view index = some v → isTarget a = true →
      (getNextLayoutState sepDS G c p v).layout ≠ Layout.undefined)
    (h : Corresponds sepDS { o with views := ts.map (·.2) } ts)
    (e : createOne sepDS G p index (o, c) a = some (o', c')) :
    (isTarget a = false ∧ o' = o ∧ c' = c)
    ∨ ∃ v, isTarget a = true ∧ a.img.view index = some v
      ∧ Corresponds sepDS { o' with views := (ts ++ [(a, v)]).map (·.2) } (ts ++ [(a, v)]) := by
  unfold createOne at e
  by_cases ht : isTarget a = true
  · rw [if_pos ht] at e
    right
    cases hv : a.img.view index with
    | none => rw [hv] at e; simp at e
    | some v =>
      rw [hv] at e
      refine ⟨v, ht, rfl, ?_⟩
      simp only [addAttach] at e
      have hn := hc v (getCurrentLayoutState G c v).2 hv ht
      have hlen := h.descs
      simp only at hlen
      have hents := h.entries
      simp only at hents
      have hat : ∀ (ds : List Desc) (es : List Entry), ds.length = ts.length → es.length = ts.length → ∀ (d : Desc) (e : Entry)
          (k : Nat), (k < ts.length → (ds ++ [d])[k]? = ds[k]? ∧ (es ++ [e])[k]? = es[k]?)
            ∧ (k = ts.length → (ds ++ [d])[k]? = some d ∧ (es ++ [e])[k]? = some e) := by
        intro ds es h1 h2 d e k
        refine ⟨fun hk => ⟨List.getElem?_append_left (by omega), List.getElem?_append_left (by omega)⟩, ?_⟩
        rintro rfl
        exact ⟨by rw [← h1]; simp, by rw [← h2]; simp⟩
      have hts : ∀ (k : Nat) av, (ts ++ [(a, v)])[k]? = some av ↔ (k < ts.length ∧ ts[k]? = some av) ∨ (k = ts.length ∧ av = (a, v)) := by
        intro k av
        rw [List.getElem?_append]
        split
        · rename_i hk
          constructor
          · intro hx; exact Or.inl ⟨hk, hx⟩
          · rintro (hx | hx)
            · exact hx.2
            · omega
        · rename_i hk
          rw [List.getElem?_singleton]
          constructor
          · intro hx
            split at hx
            · exact Or.inr ⟨by omega, (Option.some.inj hx).symm⟩
            · simp at hx
          · rintro (hx | hx)
            · omega
            · rw [if_pos (by omega), hx.2]
      have lt_of : ∀ {k : Nat} {av : Attachment × View}, ts[k]? = some av → k < ts.length := by
        intro k av hx
        exact (List.getElem?_eq_some_iff.1 hx).1
      -- both cases share descriptions and entries
      have core : ∀ (dsc : Desc) (en : Entry), en.view = v → dsc.format = v.format → dsc.initial = en.input.layout →
          dsc.final = en.output.layout → dsc.loadOp = (if en.input.layout = Layout.undefined then LoadOp.clear else a.img.loadOp) →
          dsc.storeOp = a.img.storeOp → dsc.stencilLoadOp = a.img.stencilLoadOp → dsc.stencilStoreOp = a.img.stencilStoreOp →
          (a.isInput = false → en.input.layout = Layout.undefined) → en.output.layout ≠ Layout.undefined →
          ∀ (k : Nat) (av : Attachment × View), (ts ++ [(a, v)])[k]? = some av → ∃ e d, (o.entries ++ [en])[k]? = some e
          ∧ (o.descs ++ [dsc])[k]? = some d ∧
          e.view = av.2 ∧ d.format = av.2.format
          ∧ d.initial = e.input.layout ∧ d.final = e.output.layout
          ∧ d.loadOp = (if e.input.layout = Layout.undefined then LoadOp.clear else av.1.img.loadOp)
          ∧ d.storeOp = av.1.img.storeOp ∧ d.stencilLoadOp = av.1.img.stencilLoadOp
          ∧ d.stencilStoreOp = av.1.img.stencilStoreOp
          ∧ (av.1.isInput = false → e.input.layout = Layout.undefined)
          ∧ e.output.layout ≠ Layout.undefined := by
        intro dsc en h1 h2 h3 h4 h5 h6 h7 h8 h9 h10 k av hk
        obtain ⟨a1, a2⟩ := hat o.descs o.entries hlen hents dsc en k
        rcases (hts k av).1 hk with ⟨hlt, hk'⟩ | ⟨rfl, rfl⟩
        · obtain ⟨e, d, g⟩ := h.at' k av hk'
          simp only at g
          rw [(a1 hlt).1, (a1 hlt).2]
          exact ⟨e, d, g⟩
        · exact ⟨en, dsc, (a2 rfl).2, (a2 rfl).1, h1, h2, h3, h4, h5, h6, h7, h8, h9, h10⟩
      have core' := core
        ⟨v.format, if (if !a.isInput then makeLayoutState Layout.undefined else (getCurrentLayoutState G c v).1).layout
            = Layout.undefined then LoadOp.clear else a.img.loadOp, a.img.storeOp, a.img.stencilLoadOp, a.img.stencilStoreOp,
          (if !a.isInput then makeLayoutState Layout.undefined else (getCurrentLayoutState G c v).1).layout,
          (getNextLayoutState sepDS G (getCurrentLayoutState G c v).2 p v).layout⟩
        ⟨v, if !a.isInput then makeLayoutState Layout.undefined else (getCurrentLayoutState G c v).1,
          getNextLayoutState sepDS G (getCurrentLayoutState G c v).2 p v⟩
        rfl rfl rfl rfl rfl rfl rfl rfl (by intro hi; simp [hi, makeLayoutState]) hn
      have hclr : o.clears = ts.map (·.1.img.clearValue) := h.clears
      have hbl : o.blends = (ts.filter fun av => !isDS av.1).map (·.1.img.blend) := h.blends
      by_cases hds : isDS a = true
      · rw [if_pos (by exact hds)] at e
        simp only [Option.some.injEq, Prod.mk.injEq] at e
        obtain ⟨rfl, rfl⟩ := e
        refine ⟨by simp [hlen], by simp [hents], rfl, core', by simp [hclr], by simp [hbl, hds], ?_, h.order, ?_, ?_⟩
        · intro ref
          simp only
          rw [h.colours ref]
          constructor
          · rintro ⟨k, av, h1, h2, h3⟩
            exact ⟨k, av, (hts k av).2 (Or.inl ⟨lt_of h1, h1⟩), h2, h3⟩
          · rintro ⟨k, av, h1, h2, h3⟩
            rcases (hts k av).1 h1 with ⟨_, h1⟩ | ⟨rfl, rfl⟩
            · exact ⟨k, av, h1, h2, h3⟩
            · simp [hds] at h2
        · intro hall
          have := hall (a, v) (by simp)
          simp [hds] at this
        · intro k av h1 h2 h3
          have := h3 ts.length (a, v) ((hts _ _).2 (Or.inr ⟨rfl, rfl⟩)) hds
          rcases (hts k av).1 h1 with ⟨h4, _⟩ | ⟨rfl, rfl⟩
          · omega
          · simp [hlen]
      · rw [if_neg (by exact hds)] at e
        simp only [Option.some.injEq, Prod.mk.injEq] at e
        obtain ⟨rfl, rfl⟩ := e
        have hds' : isDS a = false := by simpa using hds
        refine ⟨by simp [hlen], by simp [hents], rfl, core', by simp [hclr], by simp [hbl, hds'], ?_, ?_, ?_, ?_⟩
        · intro ref
          simp only [List.mem_append, List.mem_singleton]
          rw [show (ref ∈ o.colours) ↔ _ from h.colours ref]
          constructor
          · rintro (⟨k, av, h1, h2, h3⟩ | rfl)
            · exact ⟨k, av, (hts k av).2 (Or.inl ⟨lt_of h1, h1⟩), h2, h3⟩
            · exact ⟨ts.length, (a, v), (hts _ _).2 (Or.inr ⟨rfl, rfl⟩), hds', by simp [hlen]⟩
          · rintro ⟨k, av, h1, h2, h3⟩
            rcases (hts k av).1 h1 with ⟨_, h1⟩ | ⟨rfl, rfl⟩
            · exact Or.inl ⟨k, av, h1, h2, h3⟩
            · right; rw [h3, hlen]
        · simp only
          rw [List.pairwise_append]
          refine ⟨h.order, by simp, ?_⟩
          intro x hx y hy
          simp only [List.mem_singleton] at hy
          subst hy
          obtain ⟨k, av, h1, _, h3⟩ := (h.colours x).1 hx
          rw [h3]
          simp only [hlen]
          exact lt_of h1
        · intro hall
          exact h.noDepth fun av hav => hall av (by simp [hav])
        · intro k av h1 h2 h3
          rcases (hts k av).1 h1 with ⟨_, h1⟩ | ⟨rfl, rfl⟩
          · exact h.depth k av h1 h2 fun j bw hj hb => h3 j bw ((hts j bw).2 (Or.inl ⟨lt_of hj, hj⟩)) hb
          · simp [hds'] at h2
  · rw [if_neg ht] at e
    simp only [Option.some.injEq, Prod.mk.injEq] at e
    exact Or.inl ⟨by simpa using ht, e.1.symm, e.2.symm⟩

theorem next_defined {sepDS : Bool} {G : GraphSt} {p : RunPass} (hp : Declares sepDS p) {a : Attachment}
    (ha : a ∈ p.images) {v : View} (hv : v ∈ a.img.views) (c : Ctx) :
    (getNextLayoutState sepDS G c p v).layout ≠ Layout.undefined := by
  have own : ((p.layouts sepDS).toMap.getState v.image v.viewType v.range).layout ≠ Layout.undefined := by
    obtain ⟨sub, hd, hne⟩ := (hp a ha).2 v hv
    obtain ⟨l, m, hl⟩ := sub.nonEmpty_iff.1 hne
    have hu : UsesIn p a v.image.id l m := ⟨ha, v, hv, rfl, sub, hd, hl⟩
    obtain ⟨b, _, hb⟩ := layouts_at_complete (sepDS := sepDS) hu
    obtain ⟨l', m', t, h1, h2, h3⟩ := getState_mem (m := (p.layouts sepDS).toMap) (img := v.image) (vt := v.viewType)
      (r := v.range) ⟨l, m, (hd.has_iff l m).1 hl, by rw [toMap_at, hb]; rfl⟩
    rw [← h3]
    rw [toMap_at] at h2
    obtain ⟨d, hd', rfl⟩ := layouts_at_sound h2
    exact (hp d hd'.1).1
  have h := next_lookup sepDS G c p v
  simp only at h
  by_cases h1 : (c.nextImages.getState v.image v.viewType v.range).layout = Layout.undefined
  · by_cases h2 : (G.outputs.toMap.getState v.image v.viewType v.range).layout = Layout.undefined
    · rw [h.2.2 h1 h2]; exact own
    · rw [h.2.1 h1 h2]; exact h2
  · rw [h.1 h1]; exact h1

theorem createAll_corresponds {sepDS : Bool} {G : GraphSt} {p : RunPass} (hp : Declares sepDS p) {index : Nat} :
    ∀ (as : List Attachment), (∀ a ∈ as, a ∈ p.images) → ∀ (o o' : PassObj) (c c' : Ctx) (ts : List (Attachment × View)),
    Corresponds sepDS { o with views := ts.map (·.2) } ts →
    foldOpt (createOne sepDS G p index) (o, c) as = some (o', c') →
    ∃ us, us.map (·.1) = as.filter isTarget ∧ (∀ av ∈ us, av.1.img.view index = some av.2)
      ∧ Corresponds sepDS { o' with views := (ts ++ us).map (·.2) } (ts ++ us) := by
  intro as
  induction as with
  | nil =>
    intro _ o o' c c' ts h e
    simp only [foldOpt, Option.some.injEq, Prod.mk.injEq] at e
    obtain ⟨rfl, rfl⟩ := e
    exact ⟨[], rfl, by simp, by simpa using h⟩
  | cons a as ih =>
    intro hs o o' c c' ts h e
    unfold foldOpt at e
    cases e1 : createOne sepDS G p index (o, c) a with
    | none => rw [e1] at e; simp at e
    | some oc =>
      obtain ⟨o1, c1⟩ := oc
      rw [e1] at e
      simp only at e
      rcases createOne_corresponds (fun v c hv _ => next_defined hp (hs a (by simp)) (view_mem hv) c) h e1 with
        ⟨ht, rfl, rfl⟩ | ⟨v, ht, hv, h1⟩
      · obtain ⟨us, u1, u2, u3⟩ := ih (fun b hb => hs b (by simp [hb])) _ _ _ _ ts h e
        exact ⟨us, by simp [ht, u1], u2, u3⟩
      · obtain ⟨us, u1, u2, u3⟩ := ih (fun b hb => hs b (by simp [hb])) _ _ _ _ (ts ++ [(a, v)]) h1 e
        refine ⟨(a, v) :: us, by simp [ht, u1], ?_, ?_⟩
        · intro av hav
          rcases List.mem_cons.1 hav with rfl | hav
          · exact hv
          · exact u2 av hav
        · simpa using u3

theorem area_keeps {w h : Nat} {p : RunPass} {o o' : PassObj} (e : area w h p o = some o') :
    o'.descs = o.descs ∧ o'.entries = o.entries ∧ o'.colours = o.colours ∧ o'.depth = o.depth ∧ o'.clears = o.clears
    ∧ o'.blends = o.blends ∧ o'.deps = o.deps := by
  unfold area at e
  have : ∀ (as : List Attachment) (o o' : PassObj), foldOpt areaOne o as = some o' →
      o'.descs = o.descs ∧ o'.entries = o.entries ∧ o'.colours = o.colours ∧ o'.depth = o.depth ∧ o'.clears = o.clears
      ∧ o'.blends = o.blends ∧ o'.deps = o.deps := by
    intro as
    induction as with
    | nil => intro o o' e; simp only [foldOpt, Option.some.injEq] at e; subst e; exact ⟨rfl, rfl, rfl, rfl, rfl, rfl, rfl⟩
    | cons a as ih =>
      intro o o' e
      unfold foldOpt at e
      cases e1 : areaOne o a with
      | none => rw [e1] at e; simp at e
      | some o1 =>
        rw [e1] at e
        have h1 : o1.descs = o.descs ∧ o1.entries = o.entries ∧ o1.colours = o.colours ∧ o1.depth = o.depth
            ∧ o1.clears = o.clears ∧ o1.blends = o.blends ∧ o1.deps = o.deps := by
          unfold areaOne at e1
          split at e1
          · cases hv : a.img.view 0 with
            | none => rw [hv] at e1; simp at e1
            | some v => rw [hv] at e1; simp only [Option.map_some, Option.some.injEq] at e1; subst e1; exact ⟨rfl, rfl, rfl, rfl, rfl, rfl, rfl⟩
          · simp only [Option.some.injEq] at e1; subst e1; exact ⟨rfl, rfl, rfl, rfl, rfl, rfl, rfl⟩
        obtain ⟨i1, i2, i3, i4, i5, i6, i7⟩ := ih o1 o' e
        exact ⟨i1.trans h1.1, i2.trans h1.2.1, i3.trans h1.2.2.1, i4.trans h1.2.2.2.1, i5.trans h1.2.2.2.2.1,
          i6.trans h1.2.2.2.2.2.1, i7.trans h1.2.2.2.2.2.2⟩
  obtain ⟨h1, h2, h3, h4, h5, h6, h7⟩ := this _ _ _ e
  exact ⟨h1, h2, h3, h4, h5, h6, h7⟩

theorem mapM_views {index : Nat} : ∀ (us : List (Attachment × View)) (as : List Attachment),
    us.map (·.1) = as → (∀ av ∈ us, av.1.img.view index = some av.2) →
    (as.mapM fun (a : Attachment) => a.img.view index) = some (us.map (·.2)) := by
  intro us
  induction us with
  | nil => intro as h _; subst h; rfl
  | cons u us ih =>
    intro as h hv
    subst h
    simp only [List.map_cons, List.mapM_cons]
    rw [hv u (by simp), ih _ rfl fun av hav => hv av (by simp [hav])]
    rfl

/-- What `initialise` makes, if it makes something. -/
theorem initialise_new {sepDS : Bool} {G : GraphSt} {w h : Nat} {p : RunPass} {index : Nat} {c c' : Ctx} {o : PassObj}
    (e : initialise sepDS G w h p index none c = some (o, true, c')) :
    ∃ o1 o2, foldOpt (createOne sepDS G p index) ({}, c) p.images = some (o1, c')
      ∧ area w h p { o1 with prev := c.prev, next := c.next, deps := dependencies c.prev c.next } = some o2 ∧ framebuffer p index o2 = some o := by
  unfold initialise at e
  simp only [create] at e
  cases e1 : foldOpt (createOne sepDS G p index) ({}, c) p.images with
  | none => rw [e1] at e; simp at e
  | some oc =>
    obtain ⟨o1, c1⟩ := oc
    rw [e1] at e
    simp only [Option.map_some, Option.bind_some] at e
    cases e2 : area w h p { o1 with prev := c.prev, next := c.next, deps := dependencies c.prev c.next } with
    | none => rw [e2] at e; simp at e
    | some o2 =>
      rw [e2] at e
      simp only [Option.bind_some] at e
      cases e3 : framebuffer p index o2 with
      | none => rw [e3] at e; simp at e
      | some o3 =>
        rw [e3] at e
        simp only [Option.map_some, Option.some.injEq, Prod.mk.injEq, true_and] at e
        obtain ⟨rfl, rfl⟩ := e
        exact ⟨o1, o2, rfl, e2, e3⟩

/-- Every part of a render pass object, made at any time in any context, comes from the render target at its position. -/
theorem parts_correspond {sepDS : Bool} {p : RunPass} {index : Nat} {o : PassObj} (hp : Declares sepDS p)
    (h : MadeFor sepDS p index o) : ∃ ts, Targets p index ts ∧ Corresponds sepDS o ts := by
  obtain ⟨G, c, c', w, h, e⟩ := h
  obtain ⟨o1, o2, e1, e2, e3⟩ := initialise_new e
  have h0 : Corresponds sepDS { ({} : PassObj) with views := ([] : List (Attachment × View)).map (·.2) } [] :=
    ⟨rfl, rfl, rfl, by simp, rfl, rfl, by simp, by simp, fun _ => rfl, by simp⟩
  obtain ⟨us, u1, u2, u3⟩ := createAll_corresponds hp p.images (fun _ h => h) _ _ _ _ [] h0 e1
  obtain ⟨a1, a2, a3, a4, a5, a6, -⟩ := area_keeps e2
  refine ⟨us, ⟨u1, u2⟩, ?_⟩
  unfold framebuffer at e3
  rw [mapM_views us _ u1 u2] at e3
  simp only [Option.map_some, Option.some.injEq] at e3
  subst e3
  simp only [List.nil_append] at u3
  refine ⟨?_, ?_, rfl, ?_, a5.trans u3.clears, a6.trans u3.blends, ?_, ?_, ?_, ?_⟩
  · simp only [a1]; exact u3.descs
  · simp only [a2]; exact u3.entries
  · simp only [a1, a2]; exact u3.at'
  · simp only [a3]; exact u3.colours
  · simp only [a3]; exact u3.order
  · simp only [a4]; exact u3.noDepth
  · simp only [a4]; exact u3.depth

/-! ### Running -/

/-- Setting the states of several views, as `begin` and `end` do. -/
theorem setAll_at (f : Entry → LayoutState) : ∀ (es : List Entry) (c : Ctx) (i l m : Nat),
    let c' := es.foldl (fun (c : Ctx) (e : Entry) => c.setLayout e.view.image e.view.viewType e.view.range (f e)) c
    ((∀ e ∈ es, ¬ (i = e.view.image.id ∧ (getVirtualRange e.view.image e.view.viewType e.view.range).Has l m)) →
      c'.images.at i l m = c.images.at i l m)
    ∧ (∀ s, (∀ e ∈ es, i = e.view.image.id ∧ (getVirtualRange e.view.image e.view.viewType e.view.range).Has l m → f e = s) →
      (∃ e ∈ es, i = e.view.image.id ∧ (getVirtualRange e.view.image e.view.viewType e.view.range).Has l m) →
      c'.images.at i l m = some s) := by
  intro es
  induction es with
  | nil => intro c i l m; exact ⟨fun _ => rfl, fun s _ h => by simp at h⟩
  | cons e es ih =>
    intro c i l m
    simp only [List.foldl_cons]
    have h := ih (c.setLayout e.view.image e.view.viewType e.view.range (f e)) i l m
    simp only at h
    have h0 : (c.setLayout e.view.image e.view.viewType e.view.range (f e)).images.at i l m
        = if i = e.view.image.id ∧ (getVirtualRange e.view.image e.view.viewType e.view.range).Has l m then some (f e)
          else c.images.at i l m := by
      simp only [Ctx.setLayout, LayoutMap.at_setState]
    refine ⟨?_, ?_⟩
    · intro hn
      rw [h.1 fun x hx => hn x (by simp [hx]), h0, if_neg (hn e (by simp))]
    · intro s hall hex
      by_cases hr : ∃ e ∈ es, i = e.view.image.id ∧ (getVirtualRange e.view.image e.view.viewType e.view.range).Has l m
      · exact h.2 s (fun x hx => hall x (by simp [hx])) hr
      · rw [h.1 fun x hx hc => hr ⟨x, hx, hc⟩, h0]
        obtain ⟨x, hx, hc⟩ := hex
        rcases List.mem_cons.1 hx with rfl | hx
        · rw [if_pos hc, hall x (by simp) hc]
        · exact absurd ⟨x, hx, hc⟩ hr

theorem setAll_keeps (f : Entry → LayoutState) : ∀ (es : List Entry) (c : Ctx),
    (es.foldl (fun (c : Ctx) (e : Entry) => c.setLayout e.view.image e.view.viewType e.view.range (f e)) c).implicit
      = c.implicit := by
  intro es
  induction es with
  | nil => intro c; rfl
  | cons e es ih => intro c; exact (ih _).trans rfl

/-- Putting several ranges in layouts. -/
theorem putAll_at (f : PassAtt → Option Nat) : ∀ (xs : List PassAtt) (g : Layouts) (i a l m : Nat),
    let g' := xs.foldl (fun g x => match f x with | some k => put g x.image x.range k | none => g) g
    ((∀ x ∈ xs, f x ≠ none → ¬ (i = x.image ∧ x.range.Has l m)) → g' i a l m = g i a l m)
    ∧ (∀ k, (∀ x ∈ xs, i = x.image ∧ x.range.Has l m → ∀ j, f x = some j → j = k) →
      (∃ x ∈ xs, i = x.image ∧ x.range.Has l m ∧ f x ≠ none) → g' i a l m = k) := by
  intro xs
  induction xs with
  | nil => intro g i a l m; exact ⟨fun _ => rfl, fun k _ h => by simp at h⟩
  | cons x xs ih =>
    intro g i a l m
    simp only [List.foldl_cons]
    cases hf : f x with
    | none =>
      simp only
      have h := ih g i a l m
      simp only at h
      refine ⟨fun hn => h.1 fun y hy => hn y (by simp [hy]), ?_⟩
      intro k hall hex
      refine h.2 k (fun y hy => hall y (by simp [hy])) ?_
      obtain ⟨y, hy, hc⟩ := hex
      rcases List.mem_cons.1 hy with rfl | hy
      · exact absurd hf hc.2.2
      · exact ⟨y, hy, hc⟩
    | some j =>
      simp only
      have h := ih (put g x.image x.range j) i a l m
      simp only at h
      refine ⟨?_, ?_⟩
      · intro hn
        rw [h.1 fun y hy => hn y (by simp [hy])]
        unfold put
        rw [if_neg (hn x (by simp) (by simp [hf]))]
      · intro k hall hex
        by_cases hr : ∃ y ∈ xs, i = y.image ∧ y.range.Has l m ∧ f y ≠ none
        · exact h.2 k (fun y hy => hall y (by simp [hy])) hr
        · rw [h.1 fun y hy h1 h2 => hr ⟨y, hy, h2.1, h2.2, h1⟩]
          obtain ⟨y, hy, hc⟩ := hex
          rcases List.mem_cons.1 hy with rfl | hy
          · unfold put
            rw [if_pos ⟨hc.1, hc.2.1⟩]
            exact hall y (by simp) ⟨hc.1, hc.2.1⟩ j hf
          · exact absurd ⟨y, hy, hc⟩ hr

theorem mem_atts {o : PassObj} {x : PassAtt} :
    x ∈ o.atts ↔ ∃ (k : Nat) (d : Desc) (v : View), o.descs[k]? = some d ∧ o.views[k]? = some v ∧ x = o.att k d v := by
  unfold PassObj.atts
  rw [List.mem_mapIdx]
  constructor
  · rintro ⟨k, hk, rfl⟩
    refine ⟨k, (o.descs.zip o.views)[k].1, (o.descs.zip o.views)[k].2, ?_, ?_, rfl⟩
    · simp only [List.length_zip] at hk
      simp only [List.getElem_zip]
      exact List.getElem?_eq_getElem (by omega)
    · simp only [List.length_zip] at hk
      simp only [List.getElem_zip]
      exact List.getElem?_eq_getElem (by omega)
  · rintro ⟨k, d, v, h1, h2, rfl⟩
    obtain ⟨k1, e1⟩ := List.getElem?_eq_some_iff.1 h1
    obtain ⟨k2, e2⟩ := List.getElem?_eq_some_iff.1 h2
    refine ⟨k, by simp only [List.length_zip]; omega, ?_⟩
    simp only [List.getElem_zip, e1, e2]

variable {sepDS : Bool} {fmt : Nat → Nat} {V : View → Prop} {passes : List RunPass} {g0 : Layouts} {G : GraphSt}

/-- Two render targets of a tidy pass sharing a subresource are one. -/
theorem target_unique (hT : TidyViews sepDS fmt V passes) {p : RunPass} (hp : p ∈ passes) {index : Nat}
    {ts : List (Attachment × View)} (ht : Targets p index ts) {j k : Nat} {av bw : Attachment × View}
    (hj : ts[j]? = some av) (hk : ts[k]? = some bw) {l m : Nat} (hi : av.2.image.id = bw.2.image.id)
    (ha : av.2.range.Has l m) (hb : bw.2.range.Has l m) : j = k := by
  have h1 := (hT.apart p hp index).filter isTarget
  rw [← ht.all, List.pairwise_map] at h1
  rw [List.pairwise_iff_getElem] at h1
  obtain ⟨j1, ej⟩ := List.getElem?_eq_some_iff.1 hj
  obtain ⟨k1, ek⟩ := List.getElem?_eq_some_iff.1 hk
  have va := ht.view av (List.mem_of_getElem? hj)
  have vb := ht.view bw (List.mem_of_getElem? hk)
  rcases Nat.lt_trichotomy j k with h | h | h
  · exfalso
    rcases h1 j k j1 k1 h av.2 bw.2 (by rw [ej]; exact va) (by rw [ek]; exact vb) with h2 | h2
    · exact h2 hi
    · exact h2 l m ⟨ha, hb⟩
  · exact h
  · exfalso
    rcases h1 k j k1 j1 h bw.2 av.2 (by rw [ek]; exact vb) (by rw [ej]; exact va) with h2 | h2
    · exact h2 hi.symm
    · exact h2 l m ⟨hb, ha⟩

theorem exec_users (g : Layouts) (ds : List Nat) : execAll g (ds.map .user) = g := by
  induction ds generalizing g with
  | nil => rfl
  | cons d ds ih => exact ih g

theorem valid_users (g : Layouts) (ds : List Nat) : StreamValid g (ds.map .user) := by
  induction ds generalizing g with
  | nil => trivial
  | cons d ds ih => exact ⟨trivial, ih g⟩

theorem last_ds : ∀ (ts : List (Attachment × View)), (∃ av ∈ ts, isDS av.1 = true) →
    ∃ (j : Nat) (bw : Attachment × View), ts[j]? = some bw ∧ isDS bw.1 = true ∧
      ∀ (i : Nat) (cu : Attachment × View), ts[i]? = some cu → isDS cu.1 = true → i ≤ j
  | [], h => by simp at h
  | x :: ts, h => by
    by_cases hr : ∃ av ∈ ts, isDS av.1 = true
    · obtain ⟨j, bw, h1, h2, h3⟩ := last_ds ts hr
      refine ⟨j + 1, bw, by simpa using h1, h2, ?_⟩
      intro i cu hi hc
      cases i with
      | zero => omega
      | succ i => have := h3 i cu (by simpa using hi) hc; omega
    · obtain ⟨y, hy, hyd⟩ := h
      rcases List.mem_cons.1 hy with rfl | hy
      · refine ⟨0, y, by simp, hyd, ?_⟩
        intro i cu hi hc
        cases i with
        | zero => omega
        | succ i => exact absurd ⟨cu, List.mem_of_getElem? (by simpa using hi), hc⟩ hr
      · exact absurd ⟨y, hy, hyd⟩ hr

/-- The layout of the reference to target `k`. -/
theorem during_eq {o : PassObj} {p : RunPass} (hD : Declares sepDS p) {index : Nat} {ts : List (Attachment × View)}
    (ht : Targets p index ts) (ho : Corresponds sepDS o ts) {k : Nat} {av : Attachment × View} (hk : ts[k]? = some av) :
    (∀ l, (o.refs.find? fun r => r.attachment == k).map (·.layout) = some l → l = av.1.getImageLayout sepDS)
    ∧ (Drawn ts k → (o.refs.find? fun r => r.attachment == k).map (·.layout) = some (av.1.getImageLayout sepDS)) := by
  have hmem : ∀ {j : Nat} {bw : Attachment × View}, ts[j]? = some bw → bw.1 ∈ p.images := by
    intro j bw hj
    have : bw.1 ∈ p.images.filter isTarget := by
      rw [← ht.all]; exact List.mem_map_of_mem (List.mem_of_getElem? hj)
    exact (List.mem_filter.1 this).1
  -- any reference to `k` has the layout
  have key : ∀ r ∈ o.refs, r.attachment = k → r.layout = av.1.getImageLayout sepDS := by
    intro r hr hrk
    unfold PassObj.refs at hr
    rcases List.mem_append.1 hr with hr | hr
    · obtain ⟨j, bw, h1, h2, h3⟩ := (ho.colours r).1 hr
      rw [h3] at hrk ⊢
      simp only at hrk
      subst hrk
      rw [hk] at h1
      rw [Option.some.inj h1]
    · split at hr
      · rename_i hd
        simp only [List.mem_singleton] at hr
        subst hr
        -- there is a last depth/stencil target
        have hex : ∃ av ∈ ts, isDS av.1 = true := by
          apply Classical.byContradiction
          intro hno
          exact hd (ho.noDepth fun av hav => by
            cases hx : isDS av.1 with
            | false => rfl
            | true => exact absurd ⟨av, hav, hx⟩ hno)
        have hlast : ∃ (j : Nat) (bw : Attachment × View), ts[j]? = some bw ∧ isDS bw.1 = true ∧
            ∀ (i : Nat) (cu : Attachment × View), ts[i]? = some cu → isDS cu.1 = true → i ≤ j := last_ds ts hex
        obtain ⟨j, bw, h1, h2, h3⟩ := hlast
        have e := ho.depth j bw h1 h2 h3
        rw [e] at hrk ⊢
        simp only at hrk
        subst hrk
        rw [hk] at h1
        rw [Option.some.inj h1]
      · simp at hr
  refine ⟨?_, ?_⟩
  · intro l hl
    cases hf : o.refs.find? fun r => r.attachment == k with
    | none => rw [hf] at hl; simp at hl
    | some r =>
      rw [hf] at hl
      simp only [Option.map_some, Option.some.injEq] at hl
      rw [← hl]
      exact key r (List.mem_of_find?_eq_some hf) (by simpa using List.find?_some hf)
  · rintro ⟨av', h1, h2⟩
    rw [hk] at h1
    cases h1
    have hex : ∃ r ∈ o.refs, r.attachment = k := by
      unfold PassObj.refs
      cases hds : isDS av.1 with
      | false =>
        exact ⟨⟨k, _⟩, List.mem_append_left _ ((ho.colours _).2 ⟨k, av, hk, hds, rfl⟩), rfl⟩
      | true =>
        have e := ho.depth k av hk hds fun j bw hj hb => Nat.le_of_eq (h2 hds j bw hj hb)
        have hl := (hD av.1 (hmem hk)).1
        refine ⟨o.depth, List.mem_append_right _ ?_, by rw [e]⟩
        rw [if_pos (by rw [e]; exact hl)]
        simp
    obtain ⟨r, hr, hrk⟩ := hex
    cases hf : o.refs.find? fun r => r.attachment == k with
    | none =>
      have := List.find?_eq_none.1 hf r hr
      simp [hrk] at this
    | some r' =>
      simp only [Option.map_some, Option.some.injEq]
      exact key r' (List.mem_of_find?_eq_some hf) (by simpa using List.find?_some hf)

/-- One render pass instance, with an object whose initial layouts are UNDEFINED or true. -/
theorem inv_instance (hT : TidyViews sepDS fmt V passes) {p : RunPass} (hp : p ∈ passes) (hD : Declares sepDS p)
    {index : Nat} {ts : List (Attachment × View)} (ht : Targets p index ts) {o : PassObj} (ho : Corresponds sepDS o ts)
    {r : Rec} (h : Inv sepDS fmt V passes g0 G r) {c : Ctx} (hc : c.implicit = r.ctx.implicit)
    (hcm : ∀ i l m, (∀ av ∈ ts, ¬ (i = av.2.image.id ∧ av.2.range.Has l m)) →
      c.images.at i l m = r.ctx.images.at i l m)
    (hin : ∀ (k : Nat) av e, ts[k]? = some av → o.entries[k]? = some e →
      e.input.layout = Layout.undefined ∨ InLayout fmt (execAll g0 r.cmds) av.2 e.input.layout)
    (hst : ∀ (k : Nat) av e, ts[k]? = some av → o.entries[k]? = some e → av.1.img.stencilLoadOp = LoadOp.load →
      (getAspectMask av.2.format).testBit 2 = true → e.input.layout ≠ Layout.undefined) (draw : List Nat) :
    let r1 := beginPass { r with ctx := c } o
    let r2 := endPass { r1 with cmds := r1.cmds ++ draw.map .user } o
    Inv sepDS fmt V passes g0 G r2
    ∧ (∀ (k : Nat) av, ts[k]? = some av → Drawn ts k →
        InLayout fmt (execAll g0 r1.cmds) av.2 (av.1.getImageLayout sepDS))
    ∧ (∀ (k : Nat) av e, ts[k]? = some av → o.entries[k]? = some e →
        InLayout fmt (execAll g0 r2.cmds) av.2 e.output.layout
        ∧ UniformState r2.ctx.images av.2.image.id av.2.range e.output)
    ∧ (∀ i a l m, (∀ av ∈ ts, ¬ (i = av.2.image.id ∧ av.2.range.Has l m)) →
        execAll g0 r2.cmds i a l m = execAll g0 r.cmds i a l m ∧ r2.ctx.images.at i l m = r.ctx.images.at i l m) := by
  intro r1 r2
  have hatt : ∀ {k : Nat} {av : Attachment × View}, ts[k]? = some av → V av.2 ∧ av.2.range.NonEmpty := by
    intro k av hk
    have h1 : av.1 ∈ p.images.filter isTarget := by
      rw [← ht.all]; exact List.mem_map_of_mem (List.mem_of_getElem? hk)
    exact hT.attached av.2 ⟨p, hp, av.1, (List.mem_filter.1 h1).1, view_mem (ht.view av (List.mem_of_getElem? hk))⟩
  -- the attachments of the instance
  have hx : ∀ x, x ∈ o.atts ↔ ∃ (k : Nat) (av : Attachment × View) (d : Desc), ts[k]? = some av ∧ o.descs[k]? = some d ∧ x = o.att k d av.2 := by
    intro x
    rw [mem_atts]
    constructor
    · rintro ⟨k, d, v, h1, h2, rfl⟩
      rw [ho.views, List.getElem?_map] at h2
      cases hk : ts[k]? with
      | none => rw [hk] at h2; simp at h2
      | some av =>
        rw [hk] at h2
        simp only [Option.map_some, Option.some.injEq] at h2
        subst h2
        exact ⟨k, av, d, hk, h1, rfl⟩
    · rintro ⟨k, av, d, h1, h2, rfl⟩
      refine ⟨k, d, av.2, h2, ?_, rfl⟩
      rw [ho.views, List.getElem?_map, h1]
      rfl
  have hentry : ∀ e ∈ o.entries, ∃ (k : Nat) (av : Attachment × View), ts[k]? = some av ∧ o.entries[k]? = some e ∧ e.view = av.2 := by
    intro e he
    obtain ⟨k, hk⟩ := List.mem_iff_getElem?.1 he
    have hk1 := (List.getElem?_eq_some_iff.1 hk).1
    rw [ho.entries] at hk1
    have hk2 : ts[k]? = some ts[k] := List.getElem?_eq_getElem hk1
    obtain ⟨e', d, h1, h2, h3, -⟩ := ho.at' k _ hk2
    rw [hk] at h1
    cases h1
    exact ⟨k, _, hk2, hk, h3⟩
  -- GPU
  have e1 : execAll g0 r1.cmds = exec (execAll g0 r.cmds) (.beginPass o.atts o.width o.height o.layers) := execAll_snoc _ _ _
  have e2 : execAll g0 r2.cmds = exec (exec (execAll g0 r.cmds) (.beginPass o.atts o.width o.height o.layers)) (.endPass o.atts) := by
    show execAll g0 (((r.cmds ++ [_]) ++ draw.map .user) ++ [_]) = _
    rw [execAll_snoc]
    have : execAll g0 ((r.cmds ++ [Cmd.beginPass o.atts o.width o.height o.layers]) ++ draw.map .user) = exec (execAll g0 r.cmds) (.beginPass o.atts o.width o.height o.layers) := by
      rw [show execAll g0 ((r.cmds ++ [Cmd.beginPass o.atts o.width o.height o.layers]) ++ draw.map .user)
        = execAll (execAll g0 (r.cmds ++ [Cmd.beginPass o.atts o.width o.height o.layers])) (draw.map .user) from by simp [execAll]]
      rw [exec_users, execAll_snoc]
    rw [this]
  have hdur : ∀ (k : Nat) av, ts[k]? = some av → Drawn ts k →
      InLayout fmt (execAll g0 r1.cmds) av.2 (av.1.getImageLayout sepDS) := by
    intro k av hk hd a l m ha hl
    rw [e1]
    obtain ⟨e, d, g1, g2, g3, -⟩ := ho.at' k av hk
    refine (putAll_at (·.during) o.atts _ _ _ _ _).2 _ ?_ ?_
    · intro x hxm hcov j hj
      obtain ⟨k', bw, d', h1, h2, rfl⟩ := (hx x).1 hxm
      have : k = k' := target_unique hT hp ht hk h1 hcov.1 hl hcov.2
      subst this
      rw [hk] at h1
      cases h1
      exact (during_eq hD ht ho hk).1 j hj
    · refine ⟨_, (hx _).2 ⟨k, av, d, hk, g2, rfl⟩, rfl, hl, ?_⟩
      show Option.map _ _ ≠ none
      rw [(during_eq hD ht ho hk).2 hd]
      simp
  have hfin : ∀ (k : Nat) av e, ts[k]? = some av → o.entries[k]? = some e → ∀ a l m, av.2.range.Has l m →
      execAll g0 r2.cmds av.2.image.id a l m = e.output.layout := by
    intro k av e hk he a l m hl
    rw [e2]
    obtain ⟨e', d, g1, g2, g3, -, -, g4, -⟩ := ho.at' k av hk
    rw [he] at g1
    cases g1
    refine (putAll_at (fun x => some x.final) o.atts _ _ _ _ _).2 _ ?_ ?_
    · intro x hxm hcov j hj
      obtain ⟨k', bw, d', h1, h2, rfl⟩ := (hx x).1 hxm
      have : k = k' := target_unique hT hp ht hk h1 hcov.1 hl hcov.2
      subst this
      rw [g2] at h2
      cases h2
      rw [← g4]
      exact (Option.some.inj hj).symm
    · exact ⟨_, (hx _).2 ⟨k, av, d, hk, g2, rfl⟩, rfl, hl, by simp⟩
  have hother : ∀ i a l m, (∀ av ∈ ts, ¬ (i = av.2.image.id ∧ av.2.range.Has l m)) →
      execAll g0 r2.cmds i a l m = execAll g0 r.cmds i a l m := by
    intro i a l m hno
    rw [e2]
    have hno' : ∀ x ∈ o.atts, ¬ (i = x.image ∧ x.range.Has l m) := by
      intro x hxm
      obtain ⟨k, av, d, h1, h2, rfl⟩ := (hx x).1 hxm
      exact hno av (List.mem_of_getElem? h1)
    refine ((putAll_at (fun x => some x.final) o.atts _ i a l m).1 fun x hxm _ => hno' x hxm).trans ?_
    exact (putAll_at (·.during) o.atts _ i a l m).1 fun x hxm _ => hno' x hxm
  -- tracker
  have hvirt : ∀ e ∈ o.entries, getVirtualRange e.view.image e.view.viewType e.view.range = e.view.range := by
    intro e he
    obtain ⟨k, av, h1, h2, h3⟩ := hentry e he
    rw [h3]
    exact virtual_plain _ _ (hT.tidy.view _ (hatt h1).1)
  have hctx : r2.ctx = o.entries.foldl (fun (c : Ctx) (e : Entry) => c.setLayout e.view.image e.view.viewType e.view.range e.output)
      (o.entries.foldl (fun (c : Ctx) (e : Entry) => c.setLayout e.view.image e.view.viewType e.view.range e.input) c) := rfl
  have htr : ∀ (k : Nat) av e, ts[k]? = some av → o.entries[k]? = some e → ∀ l m, av.2.range.Has l m →
      r2.ctx.images.at av.2.image.id l m = some e.output := by
    intro k av e hk he l m hl
    rw [hctx]
    obtain ⟨e', d, g1, g2, g3, -⟩ := ho.at' k av hk
    rw [he] at g1
    cases g1
    refine (setAll_at (·.output) o.entries _ _ l m).2 _ ?_ ?_
    · intro x hxm hcov
      rw [hvirt x hxm] at hcov
      obtain ⟨k', bw, h1, h2, h3⟩ := hentry x hxm
      rw [h3] at hcov
      have : k = k' := target_unique hT hp ht hk h1 hcov.1 hl hcov.2
      subst this
      rw [he] at h2
      cases h2
      rfl
    · refine ⟨e, List.mem_of_getElem? he, by rw [g3], ?_⟩
      rw [hvirt e (List.mem_of_getElem? he), g3]
      exact hl
  have htro : ∀ i l m, (∀ av ∈ ts, ¬ (i = av.2.image.id ∧ av.2.range.Has l m)) →
      r2.ctx.images.at i l m = r.ctx.images.at i l m := by
    intro i l m hno
    rw [hctx]
    have hno' : ∀ e ∈ o.entries, ¬ (i = e.view.image.id ∧ (getVirtualRange e.view.image e.view.viewType e.view.range).Has l m) := by
      intro e he
      rw [hvirt e he]
      obtain ⟨k, av, h1, h2, h3⟩ := hentry e he
      rw [h3]
      exact hno av (List.mem_of_getElem? h1)
    exact ((setAll_at (·.output) o.entries _ i l m).1 hno').trans
      (((setAll_at (·.input) o.entries _ i l m).1 hno').trans (hcm i l m hno))
  have himp : r2.ctx.implicit = r.ctx.implicit := by
    rw [hctx, setAll_keeps, setAll_keeps, hc]
  have hcov : ∀ i l m, (∃ (k : Nat) (av : Attachment × View) (e : Entry), ts[k]? = some av ∧ o.entries[k]? = some e
      ∧ i = av.2.image.id ∧ av.2.range.Has l m) ∨ (∀ av ∈ ts, ¬ (i = av.2.image.id ∧ av.2.range.Has l m)) := by
    intro i l m
    by_cases hh : ∃ av ∈ ts, i = av.2.image.id ∧ av.2.range.Has l m
    · left
      obtain ⟨av, hav, hh⟩ := hh
      obtain ⟨k, hk⟩ := List.mem_iff_getElem?.1 hav
      obtain ⟨e, d, g1, -⟩ := ho.at' k av hk
      exact ⟨k, av, e, hk, g1, hh⟩
    · right
      intro av hav hx; exact hh ⟨av, hav, hx⟩
  refine ⟨⟨⟨?_, ?_, ?_, ?_⟩, ?_, ?_⟩, hdur, ?_, ?_⟩
  · intro i a l m ha
    rcases hcov i l m with ⟨k, av, e, hk, he, rfl, hl⟩ | hno
    · rw [htr k av e hk he l m hl]
      exact hfin k av e hk he a l m hl
    · rw [htro i l m hno, hother i a l m hno]
      exact h.good.mirrors i a l m ha
  · show StreamValid g0 (((r.cmds ++ [_]) ++ draw.map .user) ++ [_])
    rw [streamValid_snoc, streamValid_append, streamValid_snoc]
    refine ⟨⟨⟨h.good.valid, ?_⟩, valid_users _ _⟩, trivial⟩
    intro x hxm
    obtain ⟨k, av, d, h1, h2, rfl⟩ := (hx x).1 hxm
    obtain ⟨e, d', g1, g2, g3, g4, g5, g6, g7, g8, g9, g10, g11, g12⟩ := ho.at' k av h1
    rw [h2] at g2
    cases g2
    refine ⟨?_, ?_, ?_⟩
    · show d.initial = _ ∨ ∀ a l m, Selects av.2.range a l m → execAll g0 r.cmds av.2.image.id a l m = d.initial
      rw [g5]
      rcases hin k av e h1 g1 with hu | hu
      · exact Or.inl hu
      · right
        intro a l m hsel
        exact hu a l m (by
          rw [← hT.tidy.format av.2 (hatt h1).1]
          exact aspect_of_whole (hT.tidy.aspect av.2 (hatt h1).1) hsel.1) hsel.2
    · show ((d.loadOp == LoadOp.load) = true ∨ (d.stencilLoadOp == LoadOp.load && (getAspectMask d.format).testBit 2) = true) →
        d.initial ≠ _
      rw [g5, g7, g9, g4]
      rintro (hl | hl)
      · intro hu
        rw [if_pos hu] at hl
        simp [LoadOp.clear, LoadOp.load] at hl
      · simp only [Bool.and_eq_true, beq_iff_eq] at hl
        exact hst k av e h1 g1 hl.1 hl.2
    · show d.final ≠ _
      rw [g6]
      exact g12
  · intro u hu
    unfold Uniform Untracked UniformState
    by_cases hsame : ∃ (k : Nat) (av : Attachment × View) (e : Entry), ts[k]? = some av ∧ o.entries[k]? = some e ∧ View.Same u av.2
    · obtain ⟨k, av, e, hk, he, hsame⟩ := hsame
      right
      obtain ⟨e', d, g1, g2, g3, g4, g5, g6, g7, g8, g9, g10, g11, g12⟩ := ho.at' k av hk
      rw [he] at g1
      cases g1
      refine ⟨e.output, ?_, g12⟩
      intro l m hl
      show r2.ctx.images.at u.image.id l m = _
      rw [hsame.1]
      exact htr k av e hk he l m ((hsame.2 l m).1 hl)
    · have hno : ∀ l m, u.range.Has l m → ∀ av ∈ ts, ¬ (u.image.id = av.2.image.id ∧ av.2.range.Has l m) := by
        rintro l m hl av hav ⟨h1, h2⟩
        obtain ⟨k, hk⟩ := List.mem_iff_getElem?.1 hav
        obtain ⟨e, d, g1, -⟩ := ho.at' k av hk
        rcases hT.tidy.apart u av.2 hu (hatt hk).1 with hap | hs
        · rcases hap with h4 | h4
          · exact h4 h1
          · exact h4 l m ⟨hl, h2⟩
        · exact hsame ⟨k, av, e, hk, g1, hs⟩
      rcases h.good.uniform u hu with h1 | ⟨t, h1, h2⟩
      · left; intro l m hl; rw [htro _ l m (hno l m hl)]; exact h1 l m hl
      · right; refine ⟨t, ?_, h2⟩; intro l m hl; rw [htro _ l m (hno l m hl)]; exact h1 l m hl
  · rw [himp]; exact h.good.pending
  · refine honest_mono (r := r) ?_ h.honest
    intro i l m hn
    rcases hcov i l m with ⟨k, av, e, hk, he, rfl, hl⟩ | hno
    · rw [htr k av e hk he l m hl] at hn; simp at hn
    · rw [← htro i l m hno]; exact hn
  · rw [himp]; exact h.pending
  · intro k av e hk he
    exact ⟨fun a l m _ hl => hfin k av e hk he a l m hl, fun l m hl => htr k av e hk he l m hl⟩
  · intro i a l m hno
    exact ⟨hother i a l m hno, htro i l m hno⟩

theorem targets_eq {p : RunPass} {index : Nat} {ts us : List (Attachment × View)} (h1 : ts.map (·.1) = us.map (·.1))
    (h2 : ∀ av ∈ ts, av.1.img.view index = some av.2) (h3 : ∀ av ∈ us, av.1.img.view index = some av.2) : ts = us := by
  induction ts generalizing us with
  | nil => simpa using h1.symm
  | cons t ts ih =>
    cases us with
    | nil => simp at h1
    | cons u us =>
      simp only [List.map_cons, List.cons.injEq] at h1
      have ht := h2 t (by simp)
      have hu := h3 u (by simp)
      rw [h1.1, hu] at ht
      have e : t = u := Prod.ext h1.1 (Option.some.inj ht).symm
      rw [e, ih h1.2 (fun av hav => h2 av (by simp [hav])) fun av hav => h3 av (by simp [hav])]

theorem filterMap_congr' {α β : Type} {f g : α → Option β} : ∀ {ls : List α}, (∀ j ∈ ls, f j = g j) →
    ls.filterMap f = ls.filterMap g
  | [], _ => rfl
  | j :: ls, h => by
    rw [List.filterMap_cons, List.filterMap_cons, h j (by simp), filterMap_congr' fun k hk => h k (by simp [hk])]

/-- `getCurrentLayoutState` only reads the tracked states of the view. -/
theorem current_congr (G : GraphSt) (c c' : Ctx) (v : View)
    (h : ∀ l m, (getVirtualRange v.image v.viewType v.range).Has l m →
      c.images.at v.image.id l m = c'.images.at v.image.id l m) :
    (getCurrentLayoutState G c v).1 = (getCurrentLayoutState G c' v).1 := by
  have hs : ∀ (m m' : LayoutMap), (∀ l k, (getVirtualRange v.image v.viewType v.range).Has l k →
      m.at v.image.id l k = m'.at v.image.id l k) →
      m.getState v.image v.viewType v.range = m'.getState v.image v.viewType v.range
      ∨ ((m.getState v.image v.viewType v.range).layout = Layout.undefined
        ∧ (m'.getState v.image v.viewType v.range).layout = Layout.undefined) := by
    intro m m' hm
    by_cases hn : ∀ l k, (getVirtualRange v.image v.viewType v.range).Has l k → m.at v.image.id l k = none
    · right
      exact ⟨getState_none hn, getState_none fun l k hl => by rw [← hm l k hl]; exact hn l k hl⟩
    · left
      have hx : ∃ l k, (getVirtualRange v.image v.viewType v.range).Has l k ∧ m.at v.image.id l k ≠ none := by
        apply Classical.byContradiction
        intro hno
        exact hn fun l k hl => Classical.byContradiction fun hc => hno ⟨l, k, hl, hc⟩
      obtain ⟨l, k, hl, hne⟩ := hx
      have hne' : m'.at v.image.id l k ≠ none := by rw [← hm l k hl]; exact hne
      unfold LayoutMap.at at hne hne' hm
      unfold LayoutMap.getState
      cases hx : m v.image.id with
      | none => simp [hx] at hne
      | some x =>
        cases hy : m' v.image.id with
        | none => simp [hy] at hne'
        | some y =>
          simp only [hx, hy] at hm ⊢
          have : foundStates x (getVirtualRange v.image v.viewType v.range)
              = foundStates y (getVirtualRange v.image v.viewType v.range) := by
            unfold foundStates
            generalize hr : getVirtualRange v.image v.viewType v.range = r at hm
            have hrow : ∀ i ∈ List.range r.layers,
                ((List.range r.levels).filterMap fun v => x (r.baseLayer + i) (r.baseMip + v))
                = ((List.range r.levels).filterMap fun v => y (r.baseLayer + i) (r.baseMip + v)) := by
              intro i hi
              apply filterMap_congr'
              intro j hj
              rw [List.mem_range] at hi hj
              exact hm _ _ (by unfold Range.Has; omega)
            rw [List.flatMap_def, List.flatMap_def, List.map_congr_left hrow]
          unfold getSubresourceRangeLayout
          rw [this]
  have h1 := current_lookup G c v
  have h2 := current_lookup G c' v
  simp only at h1 h2
  rcases hs c.images c'.images h with he | ⟨hu, hu'⟩
  · by_cases hu : (c.images.getState v.image v.viewType v.range).layout = Layout.undefined
    · by_cases hi : (G.inputs.getState v.image v.viewType v.range).layout = Layout.undefined
      · rw [h1.2.2 hu hi, h2.2.2 (by rw [← he]; exact hu) hi]
      · rw [h1.2.1 hu hi, h2.2.1 (by rw [← he]; exact hu) hi]
    · rw [h1.1 hu, h2.1 (by rw [← he]; exact hu), he]
  · by_cases hi : (G.inputs.getState v.image v.viewType v.range).layout = Layout.undefined
    · rw [h1.2.2 hu hi, h2.2.2 hu' hi]
    · rw [h1.2.1 hu hi, h2.2.1 hu' hi]

/-- `getCurrentLayoutState` only tracks the view. -/
theorem current_cells (G : GraphSt) (c : Ctx) (v : View) (i l m : Nat)
    (h : ¬ (i = v.image.id ∧ (getVirtualRange v.image v.viewType v.range).Has l m)) :
    (getCurrentLayoutState G c v).2.images.at i l m = c.images.at i l m := by
  have hs : ∀ (c : Ctx) s, (c.setLayout v.image v.viewType v.range s).images.at i l m = c.images.at i l m := by
    intro c s
    simp only [Ctx.setLayout, LayoutMap.at_setState]
    rw [if_neg h]
  unfold getCurrentLayoutState
  simp only
  (repeat' split) <;> simp [hs]

theorem current_other (G : GraphSt) (c : Ctx) (v : View) : (getCurrentLayoutState G c v).2.implicit = c.implicit
    ∧ (getCurrentLayoutState G c v).2.nextImages = c.nextImages := by
  unfold getCurrentLayoutState
  simp only
  constructor <;> ((repeat' split) <;> rfl)

/-- What the holder computes for a target of a new render pass. -/
def entryOf (sepDS : Bool) (G : GraphSt) (c : Ctx) (p : RunPass) (av : Attachment × View) : Entry :=
  ⟨av.2, if !av.1.isInput then makeLayoutState Layout.undefined else (getCurrentLayoutState G c av.2).1,
    getNextLayoutState sepDS G c p av.2⟩

theorem next_congr (sepDS : Bool) (G : GraphSt) (c c' : Ctx) (p : RunPass) (v : View) (h : c'.nextImages = c.nextImages) :
    getNextLayoutState sepDS G c' p v = getNextLayoutState sepDS G c p v := by
  unfold getNextLayoutState; rw [h]

theorem createAll_ctx (hT : TidyViews sepDS fmt V passes) {p : RunPass} (hp : p ∈ passes) {index : Nat} :
    ∀ (as : List Attachment), (∀ a ∈ as, a ∈ p.images) →
    as.Pairwise (fun a b => ∀ v w, a.img.view index = some v → b.img.view index = some w → View.Apart v w) →
    ∀ (o o' : PassObj) (c c' : Ctx), foldOpt (createOne sepDS G p index) (o, c) as = some (o', c') →
    ∃ us : List (Attachment × View), us.map (·.1) = as.filter isTarget ∧ (∀ av ∈ us, av.1.img.view index = some av.2)
      ∧ c'.implicit = c.implicit ∧ c'.nextImages = c.nextImages
      ∧ (∀ i l m, (∀ av ∈ us, ¬ (i = av.2.image.id ∧ av.2.range.Has l m)) → c'.images.at i l m = c.images.at i l m)
      ∧ o'.entries = o.entries ++ us.map (entryOf sepDS G c p) := by
  intro as
  induction as with
  | nil =>
    intro _ _ o o' c c' e
    simp only [foldOpt, Option.some.injEq, Prod.mk.injEq] at e
    obtain ⟨rfl, rfl⟩ := e
    exact ⟨[], rfl, by simp, rfl, rfl, fun _ _ _ _ => rfl, by simp⟩
  | cons a as ih =>
    intro hs hpw o o' c c' e
    rw [List.pairwise_cons] at hpw
    unfold foldOpt at e
    cases e1 : createOne sepDS G p index (o, c) a with
    | none => rw [e1] at e; simp at e
    | some oc =>
      obtain ⟨o1, c1⟩ := oc
      rw [e1] at e
      simp only at e
      obtain ⟨us, u1, u2, u3, u4, u5, u6⟩ := ih (fun b hb => hs b (by simp [hb])) hpw.2 o1 o' c1 c' e
      by_cases ht : isTarget a = true
      · cases hv : a.img.view index with
        | none => simp [createOne, ht, hv] at e1
        | some v =>
          have hVv := (hT.attached v ⟨p, hp, a, hs a (by simp), view_mem hv⟩).1
          have hpl := virtual_plain v.image v.range (hT.tidy.view v hVv)
          have ec : c1 = ((getCurrentLayoutState G c v).2).setLayout v.image v.viewType v.range
              (getNextLayoutState sepDS G (getCurrentLayoutState G c v).2 p v)
              ∧ o1.entries = o.entries ++ [entryOf sepDS G c p (a, v)] := by
            unfold createOne at e1
            rw [if_pos ht, hv] at e1
            simp only [addAttach] at e1
            have hn := next_congr sepDS G c _ p v (current_other G c v).2
            split at e1
            · simp only [Option.some.injEq, Prod.mk.injEq] at e1
              obtain ⟨rfl, rfl⟩ := e1
              exact ⟨rfl, by simp only [entryOf, hn]⟩
            · simp only [Option.some.injEq, Prod.mk.injEq] at e1
              obtain ⟨rfl, rfl⟩ := e1
              exact ⟨rfl, by simp only [entryOf, hn]⟩
          obtain ⟨ec, ee⟩ := ec
          have hc1 : ∀ i l m, ¬ (i = v.image.id ∧ v.range.Has l m) → c1.images.at i l m = c.images.at i l m := by
            intro i l m hno
            rw [ec]
            simp only [Ctx.setLayout, LayoutMap.at_setState, hpl]
            rw [if_neg hno]
            exact current_cells G c v i l m (by rw [hpl]; exact hno)
          have hn1 : c1.nextImages = c.nextImages := by rw [ec]; exact (current_other G c v).2
          refine ⟨(a, v) :: us, by simp [ht, u1], ?_, ?_, u4.trans hn1, ?_, ?_⟩
          · intro av hav
            rcases List.mem_cons.1 hav with rfl | hav
            · exact hv
            · exact u2 av hav
          · rw [u3, ec]; exact (current_other G c v).1
          · intro i l m hno
            rw [u5 i l m fun av hav => hno av (by simp [hav])]
            exact hc1 i l m (hno (a, v) (by simp))
          · rw [u6, ee, List.append_assoc]
            congr 1
            simp only [List.map_cons, List.singleton_append, List.cons.injEq, true_and]
            apply List.map_congr_left
            intro bw hbw
            have hmem : bw.1 ∈ as := by
              have : bw.1 ∈ us.map (·.1) := List.mem_map_of_mem hbw
              rw [u1] at this
              exact (List.mem_filter.1 this).1
            have hvb := u2 bw hbw
            have hVb := (hT.attached bw.2 ⟨p, hp, bw.1, hs bw.1 (by simp [hmem]), view_mem hvb⟩).1
            have hap := hpw.1 bw.1 hmem v bw.2 hv hvb
            have hcur : (getCurrentLayoutState G c1 bw.2).1 = (getCurrentLayoutState G c bw.2).1 := by
              apply current_congr
              intro l m hl
              rw [virtual_plain _ _ (hT.tidy.view _ hVb)] at hl
              apply hc1
              rintro ⟨h1, h2⟩
              rcases hap with h3 | h3
              · exact h3 h1.symm
              · exact h3 l m ⟨h2, hl⟩
            unfold entryOf
            rw [hcur, next_congr sepDS G c c1 p bw.2 hn1]
      · have : o1 = o ∧ c1 = c := by
          unfold createOne at e1
          rw [if_neg ht] at e1
          simp only [Option.some.injEq, Prod.mk.injEq] at e1
          exact ⟨e1.1.symm, e1.2.symm⟩
        obtain ⟨rfl, rfl⟩ := this
        exact ⟨us, by simp [ht, u1], u2, u3, u4, u5, u6⟩

/-- What `getCurrentLayoutState` answers is true. -/
theorem current_true (hT : TidyViews sepDS fmt V passes) {r : Rec} (h : Inv sepDS fmt V passes g0 G r)
    (hin : ∀ v, V v → Whole G.inputs v) (hfin : ∀ v, V v → Whole G.final.images v) {v : View}
    (hv : V v) (hne : v.range.NonEmpty) :
    ((getCurrentLayoutState G r.ctx v).1.layout = Layout.undefined
      ∧ ∀ l m, v.range.Has l m → known r.ctx G v.image.id l m = none)
    ∨ InLayout fmt (execAll g0 r.cmds) v (getCurrentLayoutState G r.ctx v).1.layout
      ∧ (getCurrentLayoutState G r.ctx v).1.layout ≠ Layout.undefined
      ∧ ∀ l m, v.range.Has l m → known r.ctx G v.image.id l m = some (getCurrentLayoutState G r.ctx v).1 := by
  have hd3 := hT.tidy.view v hv
  have hl := current_lookup G r.ctx v
  simp only at hl
  have htrue : ∀ s : LayoutState, (∀ l m, v.range.Has l m → known r.ctx G v.image.id l m = some s) →
      InLayout fmt (execAll g0 r.cmds) v s.layout := by
    intro s hk a l m ha hr
    have hm := h.good.mirrors v.image.id a l m ha
    have hk' := hk l m hr
    cases hc : r.ctx.images.at v.image.id l m with
    | some t =>
      rw [hc] at hm
      unfold known at hk'
      rw [hc] at hk'
      cases hk'
      exact hm
    | none =>
      rw [hc] at hm
      exact hm.trans (h.honest v.image.id a l m s ha hk' hc)
  rcases h.good.uniform v hv with hu | ⟨s, hu, hs⟩
  · have hun : ∀ l k, v.range.Has l k → r.ctx.images.at v.image.id l k = none := hu
    have e1 : (r.ctx.images.getState v.image v.viewType v.range).layout = Layout.undefined := getState_plain_none hd3 hu
    rcases hin v hv with hi | ⟨s, hs, hi⟩
    · have e2 : (G.inputs.getState v.image v.viewType v.range).layout = Layout.undefined := getState_plain_none hd3 hi
      rcases hfin v hv with hf | ⟨s, hs, hf⟩
      · left
        refine ⟨by rw [hl.2.2 e1 e2]; exact getState_plain_none hd3 hf, ?_⟩
        intro l m hr
        unfold known
        rw [hun l m hr, hi l m hr, hf l m hr]
      · right
        have e3 : (getCurrentLayoutState G r.ctx v).1 = s := by
          rw [hl.2.2 e1 e2]; exact getState_plain_uniform hd3 hne hf
        have hk : ∀ l m, v.range.Has l m → known r.ctx G v.image.id l m = some s := by
          intro l m hr
          unfold known
          rw [hun l m hr, hi l m hr, hf l m hr]
        rw [e3]
        exact ⟨htrue s hk, hs, hk⟩
    · right
      have e2 := getState_plain_uniform hd3 hne hi
      have e3 : (getCurrentLayoutState G r.ctx v).1 = s := by
        rw [hl.2.1 e1 (by rw [e2]; exact hs)]; exact e2
      have hk : ∀ l m, v.range.Has l m → known r.ctx G v.image.id l m = some s := by
        intro l m hr
        unfold known
        rw [hun l m hr, hi l m hr]
      rw [e3]
      exact ⟨htrue s hk, hs, hk⟩
  · right
    have e1 := getState_plain_uniform hd3 hne hu
    have e3 : (getCurrentLayoutState G r.ctx v).1 = s := by
      rw [hl.1 (by rw [e1]; exact hs)]; exact e1
    have hk : ∀ l m, v.range.Has l m → known r.ctx G v.image.id l m = some s := by
      intro l m hr
      unfold known
      rw [hu l m hr]
    rw [e3]
    exact ⟨htrue s hk, hs, hk⟩

/-- `initialise` keeps the object or makes a new one as if there was none. -/
theorem initialise_cases {w h : Nat} {p : RunPass} {index : Nat} {cached : Option PassObj} {c c' : Ctx} {o : PassObj}
    {b : Bool} (e : initialise sepDS G w h p index cached c = some (o, b, c')) :
    (b = false ∧ cached = some o ∧ checkAttaches c o.entries = true ∧ o.prev = c.prev ∧ o.next = c.next ∧ c' = c)
    ∨ (b = true ∧ initialise sepDS G w h p index none c = some (o, true, c')) := by
  have fresh : ∀ x : Option (PassObj × Bool × Ctx),
      x = ((create sepDS G p index c).bind fun oc => (area w h p oc.1).bind fun o =>
        (framebuffer p index o).map fun o => (o, true, oc.2)) → x = some (o, b, c') → b = true := by
    intro x hx he
    rw [he] at hx
    cases h1 : create sepDS G p index c with
    | none => rw [h1] at hx; simp at hx
    | some oc =>
      rw [h1] at hx
      simp only [Option.bind_some] at hx
      cases h2 : area w h p oc.1 with
      | none => rw [h2] at hx; simp at hx
      | some o2 =>
        rw [h2] at hx
        simp only [Option.bind_some] at hx
        cases h3 : framebuffer p index o2 with
        | none => rw [h3] at hx; simp at hx
        | some o3 =>
          rw [h3] at hx
          simp only [Option.map_some, Option.some.injEq, Prod.mk.injEq] at hx
          exact hx.2.1
  unfold initialise at e
  cases cached with
  | none =>
    have hb := fresh _ rfl e
    subst hb
    exact Or.inr ⟨rfl, e⟩
  | some q =>
    simp only at e
    split at e
    · rename_i hq
      simp only [Option.some.injEq, Prod.mk.injEq] at e
      obtain ⟨rfl, rfl, rfl⟩ := e
      simp only [Bool.and_eq_true, beq_iff_eq] at hq
      exact Or.inl ⟨rfl, rfl, hq.1, hq.2.1, hq.2.2, rfl⟩
    · have hb := fresh _ rfl e
      subst hb
      exact Or.inr ⟨rfl, e⟩

/-- C37, the part that holds: when the holder keeps a render pass, it starts in the state that the recording tracks of
every target it tracks something of, and the pipeline states around the pass are the same. -/
theorem reuse_fits_tracked {w h : Nat} {p : RunPass} {index : Nat} {cached : Option PassObj} {c c' : Ctx} {o : PassObj}
    (e : initialise sepDS G w h p index cached c = some (o, false, c')) :
    cached = some o ∧ c' = c ∧ o.prev = c.prev ∧ o.next = c.next
    ∧ ∀ en ∈ o.entries, (c.images.getState en.view.image en.view.viewType en.view.range).layout ≠ Layout.undefined →
      (c.images.getState en.view.image en.view.viewType en.view.range).layout = en.input.layout
      ∧ (c.images.getState en.view.image en.view.viewType en.view.range).state.access = en.input.state.access
      ∧ (en.input.state.access ≠ 0 →
        (c.images.getState en.view.image en.view.viewType en.view.range).state.stage = en.input.state.stage) := by
  rcases initialise_cases e with ⟨-, h1, h2, h3, h4, h5⟩ | ⟨hb, -⟩
  · refine ⟨h1, h5, h3, h4, ?_⟩
    intro en hen hne
    unfold checkAttaches at h2
    simp only [Bool.not_eq_true', List.any_eq_false, Bool.and_eq_true, not_and, bne_iff_ne] at h2
    have := fun hd => h2 en hen hd hne
    unfold differ at this
    simp only [Bool.or_eq_true, bne_iff_ne, Bool.and_eq_true, not_or] at this
    have hacc : (c.images.getState en.view.image en.view.viewType en.view.range).state.access = en.input.state.access :=
      Classical.byContradiction fun hx => this (Or.inl (Or.inr hx))
    refine ⟨Classical.byContradiction fun hx => this (Or.inl (Or.inl hx)), hacc, fun hn => ?_⟩
    exact Classical.byContradiction fun hx => this (Or.inr ⟨by rw [hacc]; exact hn, hx⟩)
  · simp at hb

/-- One recording of a pass that draws. If the object that is used again, if any, fits (see `Fits`), the render pass is
begun validly, each target it draws to is in the layout its attachment declares while it draws, each target is left in
the layout the object says, the tracker knows, and nothing else changes. -/
theorem render_instance_partial (hT : TidyViews sepDS fmt V passes)
    (hin : ∀ v, V v → Whole G.inputs v) (hfin : ∀ v, V v → Whole G.final.images v)
    {p : RunPass} (hp : p ∈ passes) (hD : Declares sepDS p) {r r' : Rec} (h : Inv sepDS fmt V passes g0 G r)
    {w ht : Nat} {index : Nat} {cached : Option PassObj} (hcached : ∀ o, cached = some o → MadeFor sepDS p index o ∧ Fits G r.ctx o)
    (hst : StencilKnown G r.ctx p index cached) {draw : List Nat} {o : PassObj}
    (e : recordPass sepDS G w ht p cached draw index r = some (o, r')) :
    ∃ ts, Targets p index ts ∧ Corresponds sepDS o ts ∧ MadeFor sepDS p index o
    ∧ r'.cmds = r.cmds ++ .beginPass o.atts o.width o.height o.layers :: (draw.map .user ++ [.endPass o.atts])
    ∧ Inv sepDS fmt V passes g0 G r'
    ∧ (∀ (k : Nat) av, ts[k]? = some av → Drawn ts k →
        InLayout fmt (execAll g0 (r.cmds ++ [.beginPass o.atts o.width o.height o.layers])) av.2 (av.1.getImageLayout sepDS))
    ∧ (∀ (k : Nat) av en, ts[k]? = some av → o.entries[k]? = some en →
        InLayout fmt (execAll g0 r'.cmds) av.2 en.output.layout
        ∧ UniformState r'.ctx.images av.2.image.id av.2.range en.output
        ∧ (cached = none → en.output = getNextLayoutState sepDS G r.ctx p av.2))
    ∧ (∀ i a l m, (∀ av ∈ ts, ¬ (i = av.2.image.id ∧ av.2.range.Has l m)) →
        execAll g0 r'.cmds i a l m = execAll g0 r.cmds i a l m ∧ r'.ctx.images.at i l m = r.ctx.images.at i l m) := by
  unfold recordPass at e
  cases e0 : initialise sepDS G w ht p index cached r.ctx with
  | none => rw [e0] at e; simp at e
  | some obc =>
    obtain ⟨o1, b, c⟩ := obc
    rw [e0] at e
    simp only [Option.map_some, Option.some.injEq, Prod.mk.injEq] at e
    obtain ⟨rfl, rfl⟩ := e
    have hmade : MadeFor sepDS p index o1 := by
      rcases initialise_cases e0 with ⟨-, hq, -⟩ | ⟨-, hf⟩
      · exact (hcached o1 hq).1
      · exact ⟨G, r.ctx, c, w, ht, hf⟩
    obtain ⟨ts, hts, ho⟩ := parts_correspond hD hmade
    have hatt : ∀ {k : Nat} {av : Attachment × View}, ts[k]? = some av →
        av.1 ∈ p.images ∧ isTarget av.1 = true ∧ V av.2 ∧ av.2.range.NonEmpty := by
      intro k av hk
      have h1 : av.1 ∈ p.images.filter isTarget := by
        rw [← hts.all]; exact List.mem_map_of_mem (List.mem_of_getElem? hk)
      have h2 := List.mem_filter.1 h1
      have h3 := hT.attached av.2 ⟨p, hp, av.1, h2.1, view_mem (hts.view av (List.mem_of_getElem? hk))⟩
      exact ⟨h2.1, h2.2, h3.1, h3.2⟩
    -- the context, the initial layouts and the final ones
    have hall : c.implicit = r.ctx.implicit
        ∧ (∀ i l m, (∀ av ∈ ts, ¬ (i = av.2.image.id ∧ av.2.range.Has l m)) → c.images.at i l m = r.ctx.images.at i l m)
        ∧ (∀ (k : Nat) av en, ts[k]? = some av → o1.entries[k]? = some en →
          en.input.layout = Layout.undefined ∨ InLayout fmt (execAll g0 r.cmds) av.2 en.input.layout)
        ∧ (∀ (k : Nat) av en, ts[k]? = some av → o1.entries[k]? = some en → av.1.img.stencilLoadOp = LoadOp.load →
          (getAspectMask av.2.format).testBit 2 = true → en.input.layout ≠ Layout.undefined)
        ∧ (∀ (k : Nat) av en, ts[k]? = some av → o1.entries[k]? = some en → cached = none →
          en.output = getNextLayoutState sepDS G r.ctx p av.2) := by
      rcases initialise_cases e0 with ⟨hb, hq, hchk, hpv, hnx, rfl⟩ | ⟨hb, hf⟩
      · refine ⟨rfl, fun _ _ _ _ => rfl, ?_, ?_, ?_⟩
        · intro k av en hk he
          obtain ⟨en', d, g1, g2, g3, -⟩ := ho.at' k av hk
          rw [he] at g1
          cases g1
          obtain ⟨-, -, hV, hne⟩ := hatt hk
          have hd3 := hT.tidy.view _ hV
          subst hb
          have ht5 := (reuse_fits_tracked e0).2.2.2.2 en (List.mem_of_getElem? he)
          rw [g3] at ht5
          rcases h.good.uniform av.2 hV with hu | ⟨s, hu, hs⟩
          · rcases (hcached o1 hq).2 en (List.mem_of_getElem? he) (by rw [g3]; exact hu) with h1 | h1
            · exact Or.inl h1
            · right
              intro a l m ha hl
              rw [g3] at h1
              obtain ⟨s, hk1, hs⟩ := h1 l m hl
              have hmm := h.good.mirrors av.2.image.id a l m ha
              have hun : r.ctx.images.at av.2.image.id l m = none := hu l m hl
              rw [hun] at hmm
              rw [hmm, h.honest _ a l m s ha hk1 hun, hs]
          · right
            have e1 := getState_plain_uniform hd3 hne hu
            rw [e1] at ht5
            rw [← (ht5 hs).1]
            intro a l m ha hl
            have hmm := h.good.mirrors av.2.image.id a l m ha
            have hun : r.ctx.images.at av.2.image.id l m = some s := hu l m hl
            rw [hun] at hmm
            exact hmm
        · intro k av en hk he hl hb2
          obtain ⟨en', d, g1, g2, g3, -⟩ := ho.at' k av hk
          rw [he] at g1
          cases g1
          obtain ⟨h1, h2, -, -⟩ := hatt hk
          exact (hst av.1 h1 h2 hl av.2 (hts.view av (List.mem_of_getElem? hk)) (by rw [← getAspectMask_eq]; exact hb2)).2.2 o1 hq en (List.mem_of_getElem? he) g3
        · intro k av en hk he hc
          rw [hc] at hq; simp at hq
      · obtain ⟨q1, q2, f1, f2, f3⟩ := initialise_new hf
        obtain ⟨us, u1, u2, u3, u4, u5, u6⟩ := createAll_ctx hT hp p.images (fun _ h => h) (hT.apart p hp index) _ _ _ _ f1
        have hus : ts = us := targets_eq (p := p) (by rw [hts.all, u1]) hts.view u2
        subst hus
        have hents : o1.entries = ts.map (entryOf sepDS G r.ctx p) := by
          have h1 := (area_keeps f2).2.1
          unfold framebuffer at f3
          rw [mapM_views ts _ u1 u2] at f3
          simp only [Option.map_some, Option.some.injEq] at f3
          subst f3
          simp only at h1 ⊢
          rw [h1, u6]
          rfl
        have hen : ∀ (k : Nat) av en, ts[k]? = some av → o1.entries[k]? = some en → en = entryOf sepDS G r.ctx p av := by
          intro k av en hk he
          rw [hents, List.getElem?_map, hk] at he
          exact (Option.some.inj he).symm
        refine ⟨u3, u5, ?_, ?_, ?_⟩
        · intro k av en hk he
          rw [hen k av en hk he]
          unfold entryOf
          simp only
          by_cases hi : av.1.isInput = true
          · simp only [hi, Bool.not_true, Bool.false_eq_true, if_false]
            obtain ⟨-, -, hV, hne⟩ := hatt hk
            rcases current_true hT h hin hfin hV hne with h1 | h1
            · exact Or.inl h1.1
            · exact Or.inr h1.1
          · simp only [Bool.not_eq_true] at hi
            simp [hi, makeLayoutState]
        · intro k av en hk he hl hb2
          obtain ⟨h1, h2, hV, hne⟩ := hatt hk
          obtain ⟨s1, s2, -⟩ := hst av.1 h1 h2 hl av.2 (hts.view av (List.mem_of_getElem? hk)) (by rw [← getAspectMask_eq]; exact hb2)
          rw [hen k av en hk he]
          unfold entryOf
          simp only [s1, Bool.not_true, Bool.false_eq_true, if_false]
          rcases current_true hT h hin hfin hV hne with h3 | h3
          · obtain ⟨l, m, hlm⟩ := av.2.range.nonEmpty_iff.1 hne
            exact absurd (h3.2 l m hlm) (s2 l m hlm)
          · exact h3.2.1
        · intro k av en hk he _
          rw [hen k av en hk he]
          rfl
    obtain ⟨c1, c2, c3, c4, c5⟩ := hall
    obtain ⟨i1, i2, i3, i4⟩ := inv_instance hT hp hD hts ho h c1 c2 c3 c4 draw
    refine ⟨ts, hts, ho, hmade, ?_, i1, i2, ?_, i4⟩
    · show ((r.cmds ++ [_]) ++ draw.map .user) ++ [_] = _
      simp
    · intro k av en hk he
      exact ⟨(i3 k av en hk he).1, (i3 k av en hk he).2, c5 k av en hk he⟩

/-! ### Whole graphs -/

/-- A frame of a graph in which some passes draw and the others use the recording context only: if, whenever a pass that
draws is entered, the object it may use again fits, the stream recorded is valid and what the graph remembers is true. -/
theorem graph_with_render_passes_valid_partial (hT : TidyViews sepDS fmt V passes) (cached : Nat → Nat → Option PassObj)
    (hbody : ∀ p ∈ passes, (Renders sepDS G p (cached p.id) ∧ Declares sepDS p)
      ∨ ∀ index r, ∃ calls, (∀ c ∈ calls, BodyCall V passes c) ∧ p.body index r = performAll sepDS r calls)
    (en : Nat → Bool) (index : Nat → Nat)
    (deps : List Ctx) (hH : Honest fmt V g0 (startCtx deps) G) (ini : Nat → Nat → Bool) (log : List Event)
    (hmade : ∀ p ∈ passes, ∀ o, cached p.id (index p.id) = some o → MadeFor sepDS p (index p.id) o)
    (hfits : ∀ p r, Enters ⟨sepDS, en⟩ G index passes (frameStart sepDS deps passes ini log) p r →
      (∀ o, cached p.id (index p.id) = some o → Fits G r.ctx o)
      ∧ StencilKnown G r.ctx p (index p.id) (cached p.id (index p.id)))
    (G' : GraphSt) (f : Frame) (e : record ⟨sepDS, en⟩ G deps index passes ini log = some (G', f)) :
    StreamValid g0 f.recd.cmds
    ∧ (∀ i a l m s, HasAspect (fmt i) a → G'.final.images.at i l m = some s →
        execAll g0 f.recd.cmds i a l m = s.layout)
    ∧ (∀ v, V v → Whole G'.final.images v) ∧ G'.inputs = G.inputs := by
  refine valid_of_bodies hT en index deps hH ini log ?_ G' f e
  intro p r he h _
  have hp := enters_mem he
  rcases hbody p hp with ⟨⟨w, ht, draw, hb⟩, hD⟩ | hb
  · rw [hb]
    cases e1 : recordPass sepDS G w ht p (cached p.id (index p.id)) draw (index p.id) r with
    | none => exact h
    | some x =>
      obtain ⟨o, r'⟩ := x
      obtain ⟨f1, f2⟩ := hfits p r he
      obtain ⟨ts, -, -, -, -, hI, -⟩ := render_instance_partial hT hH.inputs hH.final hp hD h
        (fun o ho => ⟨hmade p hp o ho, f1 o ho⟩) f2 e1
      exact hI
  · obtain ⟨calls, hc, eb⟩ := hb (index p.id) r
    rw [eb]
    exact inv_perform hT h calls hc

/-! ### Where it fails -/

/-- `getPipelineState( COLOR_ATTACHMENT_OUTPUT )`, the state of every pass that draws (RenderPass.cpp:104). -/
def drawState : AccessState := ⟨Access.colorRead ||| Access.colorWrite, Stage.colorAttachmentOutput⟩

/-- A pass that draws, without its body. -/
def drawPass (id : Nat) (images : List Attachment) : RunPass := ⟨id, 1, false, drawState, images, [], [], fun _ r => r⟩

/-- The pass with its body, given the object its holder has. -/
def RunPass.drawing (sepDS : Bool) (G : GraphSt) (p : RunPass) (cached : Option PassObj) (draw : List Nat) : RunPass :=
  { p with body := fun index r => ((recordPass sepDS G 64 64 p cached draw index r).map (·.2)).getD r }

/-- A colour target, written by a first pass, blended over by a second and sampled by a third. -/
def aFirst : RunPass := drawPass 1 [ImageAdder.outputColour.attach 1 0 [xView]]
def aBlend : RunPass := drawPass 2 [ImageAdder.inOutColour.attach 2 0 [xView]]
def aSample : RunPass := drawPass 3 [ImageAdder.sampled.attach 3 0 [xView]]

/-- The passes of a frame in which the blending pass has the object `o`. -/
def aPasses (G : GraphSt) (o : Option PassObj) : List RunPass :=
  [RunPass.drawing false G aFirst none [1], RunPass.drawing false G aBlend o [2], aSample]

def frameOf (G : GraphSt) (ps : List RunPass) (en : Nat → Bool) : Option (GraphSt × Frame) :=
  record ⟨false, en⟩ G [] (fun _ => 0) ps (fun _ _ => false) []

/-- The render pass objects begun by a stream. -/
def begun (cs : List Cmd) : List (List PassAtt) := cs.filterMap fun | .beginPass a _ _ _ => some a | _ => none


def frame0 (ps : List RunPass) : Frame := frameStart false [] ps (fun _ _ => false) []

/-- The recording with which the body of the pass at a position is entered. -/
def enteredRec (env : Env) (G : GraphSt) (index : Nat → Nat) : List RunPass → Frame → Nat → Option Rec
  | [], _, _ => none
  | p :: next, f, k =>
    let f : Frame := { f with recd := { f.recd with ctx := announce env G p next f.recd.ctx } }
    match k with
    | 0 => if env.enabled p.id then prepare env G p (index p.id) f.recd else none
    | k + 1 => (recordInto env G p (index p.id) f).bind fun f' => enteredRec env G index next f' k

theorem enters_of {env : Env} {G : GraphSt} {index : Nat → Nat} : ∀ {ps : List RunPass} {f : Frame} {k : Nat} {r : Rec},
    enteredRec env G index ps f k = some r → ∃ q, ps[k]? = some q ∧ Enters env G index ps f q r := by
  intro ps
  induction ps with
  | nil => intro f k r h; simp [enteredRec] at h
  | cons p next ih =>
    intro f k r h
    unfold enteredRec at h
    cases k with
    | zero =>
      simp only at h
      split at h
      · rename_i he
        exact ⟨p, rfl, Or.inl ⟨rfl, he, h⟩⟩
      · simp at h
    | succ k =>
      simp only at h
      obtain ⟨f', h1, h2⟩ := Option.bind_eq_some_iff.1 h
      obtain ⟨q, h3, h4⟩ := ih h2
      exact ⟨q, by simpa using h3, Or.inr ⟨f', h1, h4⟩⟩

/-- The object a pass that draws gets in a frame, from the one it has. -/
def objectIn (G : GraphSt) (ps : List RunPass) (en : Nat → Bool) (k : Nat) (p : RunPass) (o : Option PassObj) : Option PassObj :=
  (enteredRec ⟨false, en⟩ G (fun _ => 0) ps (frame0 ps) k).bind fun r =>
    (recordPass false G 64 64 p o [] 0 r).map (·.1)

/-- A first frame of a graph, from `G`, with everything enabled, then a frame with the given passes enabled; the object the
pass `p`, at position `k`, gets in the first frame is given to it in the second one. The streams of both frames, and the
object a holder without object would make in the second frame. -/
def twoFrames (G : GraphSt) (ps : GraphSt → Option PassObj → List RunPass) (k : Nat) (p : RunPass) (en : Nat → Bool) :
    Option (List Cmd × List Cmd × PassObj) :=
  (frameOf G (ps G none) fun _ => true).bind fun x =>
    (objectIn G (ps G none) (fun _ => true) k p none).bind fun o =>
      (frameOf x.1 (ps x.1 (some o)) en).bind fun y =>
        (objectIn x.1 (ps x.1 none) en k p none).map fun o' => (x.2.recd.cmds, y.2.recd.cmds, o')

/-- Nothing is known of any image. -/
def gpu0 : Layouts := fun _ _ _ _ => 0

def rng1 : Range := ⟨1, 0, 1, 0, 1⟩
def att0 : PassAtt := ⟨1, rng1, 0, some 2, 2, false, false, some 0, none, true, false⟩
def att1 : PassAtt := ⟨1, rng1, 2, some 2, 5, true, false, none, none, true, false⟩

/-- C37 fails for a target the frame tracks nothing of. First frame, everything enabled: the blending pass gets a render
pass starting in COLOR_ATTACHMENT_OPTIMAL, and the image ends in SHADER_READ_ONLY_OPTIMAL. Next frame, first pass disabled: the
render pass is used again, although the image is not in the layout it starts in. -/
theorem reuse_begins_invalid : ∃ cs1 cs2 o, twoFrames xG aPasses 1 aBlend (fun i => i != 1) = some (cs1, cs2, o)
    ∧ StreamValid gpu0 cs1 ∧ ¬ StreamValid (execAll gpu0 cs1) cs2 := by
  have h : ((twoFrames xG aPasses 1 aBlend (fun i => i != 1)).map fun x => (x.1, x.2.1))
      = some ([.beginPass [att0] 64 64 1, .user 1, .endPass [att0], .beginPass [att1] 64 64 1, .user 2, .endPass [att1]],
        [.beginPass [att1] 64 64 1, .user 2, .endPass [att1]]) := by decide
  obtain ⟨⟨cs1, cs2, o⟩, e, h⟩ := Option.map_eq_some_iff.1 h
  simp only [Prod.mk.injEq] at h
  obtain ⟨rfl, rfl⟩ := h
  refine ⟨_, _, o, e, ?_, ?_⟩
  · refine ⟨?_, trivial, trivial, ?_, trivial, trivial, trivial⟩
    · intro x hx
      rw [List.mem_singleton] at hx
      subst hx
      exact ⟨Or.inl rfl, by decide, by decide⟩
    · intro x hx
      rw [List.mem_singleton] at hx
      subst hx
      refine ⟨Or.inr ?_, by decide, by decide⟩
      intro a l m hs
      simp only [exec, List.foldl_cons, List.foldl_nil, put]
      rw [if_pos ⟨rfl, hs.2⟩]
      rfl
  · intro h
    rcases (h.1 att1 (List.mem_singleton.2 rfl)).1 with h1 | h1
    · exact absurd h1 (by decide)
    · exact absurd (h1 0 0 0 (by decide)) (by decide)

/-- A pass drawing to a declared output of the graph, and one sampling it. -/
def bPasses (G : GraphSt) (o : Option PassObj) : List RunPass := [RunPass.drawing false G aFirst o [1], aSample]
/-- The image is declared with `addOutput`, to be left in TRANSFER_SRC_OPTIMAL. -/
def bG : GraphSt := { xG with outputs := Images.set [] xView (makeLayoutState Layout.transferSrc) }

/-- C37 fails for the layouts the images are left in. First frame: the image is left in SHADER_READ_ONLY_OPTIMAL, for the pass that
samples it. Next frame, that pass disabled: the image should be left in its declared output layout (a new render pass
would), but the render pass is used again. -/
theorem reuse_ignores_final : ∃ cs1 cs2 o, twoFrames bG bPasses 0 aFirst (fun i => i != 3) = some (cs1, cs2, o)
    ∧ execAll (execAll gpu0 cs1) cs2 1 0 0 0 = Layout.shaderReadOnly
    ∧ o.entries.map (·.output.layout) = [Layout.transferSrc] := by
  have h : ((twoFrames bG bPasses 0 aFirst (fun i => i != 3)).map fun x =>
      (execAll (execAll gpu0 x.1) x.2.1 1 0 0 0, x.2.2.entries.map (·.output.layout)))
      = some (Layout.shaderReadOnly, [Layout.transferSrc]) := by decide
  obtain ⟨⟨cs1, cs2, o⟩, e, h⟩ := Option.map_eq_some_iff.1 h
  simp only [Prod.mk.injEq] at h
  exact ⟨cs1, cs2, o, e, h.1, h.2⟩

/-- An accumulating pass, alone. -/
def cPasses (G : GraphSt) (o : Option PassObj) : List RunPass := [RunPass.drawing false G aBlend o [2]]

/-- A target a pass reads and writes, unknown in the first frame, is cleared in every later one: the render pass is used
again, while a new one would load what the first frame left. -/
theorem reuse_clears_again : ∃ cs1 cs2 o, twoFrames xG cPasses 0 aBlend (fun _ => true) = some (cs1, cs2, o)
    ∧ (begun cs2).map (·.map (·.loads)) = [[false]]
    ∧ o.descs.map (fun d => (d.loadOp, d.initial)) = [(LoadOp.load, Layout.colorAttachment)] := by
  have h : ((twoFrames xG cPasses 0 aBlend (fun _ => true)).map fun x =>
      ((begun x.2.1).map (·.map (·.loads)), x.2.2.descs.map fun d => (d.loadOp, d.initial)))
      = some ([[false]], [(LoadOp.load, Layout.colorAttachment)]) := by decide
  obtain ⟨⟨cs1, cs2, o⟩, e, h⟩ := Option.map_eq_some_iff.1 h
  simp only [Prod.mk.injEq] at h
  exact ⟨cs1, cs2, o, e, h.1, h.2⟩

/-- A depth/stencil image. -/
def dsImg : Image := ⟨5, Format.d24s8, 1, 1, 64, 64, 1⟩
def dsView (aspect : Nat) : View := ⟨51 + aspect, dsImg, .d2, Format.d24s8, ⟨aspect, 0, 1, 0, 1⟩⟩
def dsPass : RunPass := drawPass 1 [ImageAdder.inOutDepthStencil.attach 1 0 [dsView 6]]

/-- Without `StencilKnown`: the stencil of an image nothing is known of is loaded from layout UNDEFINED, which is invalid (the
load operation of the depth is replaced, that of the stencil isn't). -/
theorem stencil_load_invalid : ∃ o r, recordPass false xG 64 64 dsPass none [] 0 ⟨Ctx.new, []⟩ = some (o, r)
    ∧ o.descs.map (fun d => (d.loadOp, d.stencilLoadOp, d.initial)) = [(LoadOp.clear, LoadOp.load, Layout.undefined)]
    ∧ ¬ StreamValid gpu0 r.cmds := by
  have h : ((recordPass false xG 64 64 dsPass none [] 0 ⟨Ctx.new, []⟩).map fun x =>
      (x.1.descs.map (fun d => (d.loadOp, d.stencilLoadOp, d.initial)), x.2.cmds))
      = some ([(LoadOp.clear, LoadOp.load, Layout.undefined)],
        [.beginPass [⟨5, ⟨6, 0, 1, 0, 1⟩, 0, some 3, 3, false, true, some 0, none, true, true⟩] 64 64 1,
         .endPass [⟨5, ⟨6, 0, 1, 0, 1⟩, 0, some 3, 3, false, true, some 0, none, true, true⟩]]) := by
    decide
  obtain ⟨⟨o, r⟩, e, h⟩ := Option.map_eq_some_iff.1 h
  simp only [Prod.mk.injEq] at h
  refine ⟨o, r, e, h.1, ?_⟩
  rw [h.2]
  intro hv
  exact (hv.1 _ (List.mem_singleton.2 rfl)).2.1 (Or.inr rfl) rfl

/-- A pass with a depth attachment and a stencil attachment: only the last one is referenced by the subpass, there is no depth
buffer. -/
theorem depth_then_stencil_loses_depth :
    (recordPass true xG 64 64 (drawPass 1 [ImageAdder.outputDepth.attach 1 0 [dsView 2], ImageAdder.outputStencil.attach 1 0 [dsView 4]])
      none [] 0 ⟨Ctx.new, []⟩).map (fun x => (begun x.2.cmds).map (·.map (·.during)))
      = some [[none, some Layout.stencilAttachment]] := by decide

/-! ### Which attachments are render targets -/

/-- The methods that declare a render target. -/
def ImageAdder.draws : ImageAdder → Bool
  | .inputColour | .inOutColour | .outputColour | .inputDepth | .inOutDepth | .outputDepth
  | .inputDepthStencil | .inOutDepthStencil | .outputDepthStencil | .inputStencil | .inOutStencil | .outputStencil => true
  | _ => false

/-- Exactly the attachments declared as colour, depth or stencil become attachments of the render pass, and they are exactly those
the pass doesn't move itself with barriers before its body. -/
theorem targets_are_attachments (m : ImageAdder) (pass binding : Nat) (views : List View)
    (hx : ∀ f, m = .transferInOut f → f = 0) :
    isTarget (m.attach pass binding views) = ImageAdder.draws m
    ∧ moved (m.attach pass binding views) = !ImageAdder.draws m := by
  have key : ∀ (y : Attachment) (d : Bool), (m.attach pass binding views).flags = y.flags →
      (m.attach pass binding views).img.flags = y.img.flags → ImageAdder.draws m = d → (isTarget y = d ∧ moved y = !d) →
      isTarget (m.attach pass binding views) = ImageAdder.draws m ∧ moved (m.attach pass binding views) = !ImageAdder.draws m := by
    intro y d h1 h2 h3 h4
    rw [h3, ← h4.2, ← h4.1]
    constructor <;> simp only [isTarget, isDepthAttach, isStencilAttach, isColourAttach, ImgAttach.isDepth, ImgAttach.isStencil, moved,
      Attachment.isNoTransition, Attachment.isSampledView, Attachment.isStorageView, Attachment.isTransferView,
      Attachment.isTransitionView, Attachment.isImage, ImgAttach.isSampled, ImgAttach.isStorage, ImgAttach.isTransfer,
      ImgAttach.isTransition, h1, h2]
  have key2 := key (m.attach 0 0 []) (ImageAdder.draws m)
  cases m
  case transferInOut f =>
    have := hx f rfl
    subst this
    exact key ((ImageAdder.transferInOut 0).attach 0 0 []) _ rfl rfl rfl (by decide)
  case implicitColour l => exact key ((ImageAdder.implicitColour 0).attach 0 0 []) false rfl rfl rfl (by decide)
  case implicitDepth l => exact key ((ImageAdder.implicitDepth 0).attach 0 0 []) false rfl rfl rfl (by decide)
  case implicitDepthStencil l => exact key ((ImageAdder.implicitDepthStencil 0).attach 0 0 []) false rfl rfl rfl (by decide)
  all_goals exact key2 rfl rfl rfl (by decide)

/-! ### The render area -/

/-- Size of the attachment as the holder sees it: its first view's first level. -/
def extentOf (v : View) : Nat × Nat := (v.image.width >>> v.range.baseMip, v.image.height >>> v.range.baseMip)

theorem areaAll {p : RunPass} {w h : Nat} {o o' : PassObj} (e : area w h p o = some o') :
    (w ≤ o'.width ∧ h ≤ o'.height ∧ 1 ≤ o'.layers
      ∧ ∀ a ∈ p.images, isTarget a = true → ∃ v, a.img.view 0 = some v ∧ (extentOf v).1 ≤ o'.width ∧ (extentOf v).2 ≤ o'.height
        ∧ v.range.layers ≤ o'.layers)
    ∧ (o'.width = w ∨ ∃ a ∈ p.images, isTarget a = true ∧ ∃ v, a.img.view 0 = some v ∧ (extentOf v).1 = o'.width)
    ∧ (o'.height = h ∨ ∃ a ∈ p.images, isTarget a = true ∧ ∃ v, a.img.view 0 = some v ∧ (extentOf v).2 = o'.height)
    ∧ (o'.layers = 1 ∨ ∃ a ∈ p.images, isTarget a = true ∧ ∃ v, a.img.view 0 = some v ∧ v.range.layers = o'.layers) := by
  have : ∀ (as : List Attachment) (o o' : PassObj), foldOpt areaOne o as = some o' →
      (o.width ≤ o'.width ∧ o.height ≤ o'.height ∧ o.layers ≤ o'.layers
        ∧ ∀ a ∈ as, isTarget a = true → ∃ v, a.img.view 0 = some v ∧ (extentOf v).1 ≤ o'.width ∧ (extentOf v).2 ≤ o'.height
          ∧ v.range.layers ≤ o'.layers)
      ∧ (o'.width = o.width ∨ ∃ a ∈ as, isTarget a = true ∧ ∃ v, a.img.view 0 = some v ∧ (extentOf v).1 = o'.width)
      ∧ (o'.height = o.height ∨ ∃ a ∈ as, isTarget a = true ∧ ∃ v, a.img.view 0 = some v ∧ (extentOf v).2 = o'.height)
      ∧ (o'.layers = o.layers ∨ ∃ a ∈ as, isTarget a = true ∧ ∃ v, a.img.view 0 = some v ∧ v.range.layers = o'.layers) := by
    intro as
    induction as with
    | nil =>
      intro o o' e
      simp only [foldOpt, Option.some.injEq] at e
      subst e
      simp
    | cons a as ih =>
      intro o o' e
      unfold foldOpt at e
      cases e1 : areaOne o a with
      | none => rw [e1] at e; simp at e
      | some o1 =>
        rw [e1] at e
        obtain ⟨⟨i1, i2, i3, i4⟩, i5, i6, i7⟩ := ih o1 o' e
        unfold areaOne at e1
        by_cases ht : isTarget a = true
        · rw [if_pos ht] at e1
          cases hv : a.img.view 0 with
          | none => rw [hv] at e1; simp at e1
          | some v =>
            rw [hv] at e1
            simp only [Option.map_some, Option.some.injEq] at e1
            subst e1
            simp only at i1 i2 i3 i5 i6 i7
            have l1 := Nat.le_max_left o.width (v.image.width >>> v.range.baseMip)
            have l2 := Nat.le_max_right o.width (v.image.width >>> v.range.baseMip)
            have l3 := Nat.le_max_left o.height (v.image.height >>> v.range.baseMip)
            have l4 := Nat.le_max_right o.height (v.image.height >>> v.range.baseMip)
            have l5 := Nat.le_max_left o.layers v.range.layers
            have l6 := Nat.le_max_right o.layers v.range.layers
            refine ⟨⟨Nat.le_trans l1 i1, Nat.le_trans l3 i2, Nat.le_trans l5 i3, ?_⟩, ?_, ?_, ?_⟩
            · intro b hb hbt
              rcases List.mem_cons.1 hb with rfl | hb
              · exact ⟨v, hv, Nat.le_trans l2 i1, Nat.le_trans l4 i2, Nat.le_trans l6 i3⟩
              · exact i4 b hb hbt
            · rcases i5 with i5 | ⟨b, hb, h1⟩
              · rcases Nat.le_total (v.image.width >>> v.range.baseMip) o.width with hle | hle
                · left; rw [i5, Nat.max_eq_left hle]
                · right; exact ⟨a, by simp, ht, v, hv, by rw [i5, Nat.max_eq_right hle]; rfl⟩
              · exact Or.inr ⟨b, by simp [hb], h1⟩
            · rcases i6 with i6 | ⟨b, hb, h1⟩
              · rcases Nat.le_total (v.image.height >>> v.range.baseMip) o.height with hle | hle
                · left; rw [i6, Nat.max_eq_left hle]
                · right; exact ⟨a, by simp, ht, v, hv, by rw [i6, Nat.max_eq_right hle]; rfl⟩
              · exact Or.inr ⟨b, by simp [hb], h1⟩
            · rcases i7 with i7 | ⟨b, hb, h1⟩
              · rcases Nat.le_total v.range.layers o.layers with hle | hle
                · left; rw [i7, Nat.max_eq_left hle]
                · right; exact ⟨a, by simp, ht, v, hv, by rw [i7, Nat.max_eq_right hle]⟩
              · exact Or.inr ⟨b, by simp [hb], h1⟩
        · rw [if_neg ht] at e1
          simp only [Option.some.injEq] at e1
          subst e1
          refine ⟨⟨i1, i2, i3, ?_⟩, ?_, ?_, ?_⟩
          · intro b hb hbt
            rcases List.mem_cons.1 hb with rfl | hb
            · exact absurd hbt ht
            · exact i4 b hb hbt
          · exact i5.imp id fun ⟨b, hb, h1⟩ => ⟨b, by simp [hb], h1⟩
          · exact i6.imp id fun ⟨b, hb, h1⟩ => ⟨b, by simp [hb], h1⟩
          · exact i7.imp id fun ⟨b, hb, h1⟩ => ⟨b, by simp [hb], h1⟩
  exact this _ _ _ e

theorem made_area {sepDS : Bool} {G : GraphSt} {w h : Nat} {p : RunPass} {index : Nat} {c c' : Ctx} {o : PassObj}
    (e : initialise sepDS G w h p index none c = some (o, true, c')) :
    ∃ o0 o1, area w h p o0 = some o1 ∧ o.width = o1.width ∧ o.height = o1.height ∧ o.layers = o1.layers := by
  obtain ⟨o1, o2, e1, e2, e3⟩ := initialise_new e
  refine ⟨_, o2, e2, ?_⟩
  unfold framebuffer at e3
  obtain ⟨vs, -, rfl⟩ := Option.map_eq_some_iff.1 e3
  exact ⟨rfl, rfl, rfl⟩

/-- What Vulkan requires of a framebuffer (VUID-VkFramebufferCreateInfo-flags-04533, -04534, -04535): no attachment is smaller
than it. -/
def FramebufferFits (o : PassObj) : Prop :=
  ∀ v ∈ o.views, o.width ≤ v.image.width >>> v.range.baseMip ∧ o.height ≤ v.image.height >>> v.range.baseMip
    ∧ o.layers ≤ v.range.layers

/-- The render area is that of the attachments when they all have the same size, at least the configured one, at
every index. -/
theorem area_fits_partial {sepDS : Bool} {G : GraphSt} {w h : Nat} {p : RunPass} {index : Nat} {c c' : Ctx} {o : PassObj}
    (hD : Declares sepDS p) (e : initialise sepDS G w h p index none c = some (o, true, c')) (W H L : Nat)
    (hw : w ≤ W) (hh : h ≤ H) (hl : 1 ≤ L)
    (hall : ∀ a ∈ p.images, isTarget a = true → ∀ v ∈ a.img.views,
      v.image.width >>> v.range.baseMip = W ∧ v.image.height >>> v.range.baseMip = H ∧ v.range.layers = L) :
    FramebufferFits o ∧ w ≤ o.width ∧ h ≤ o.height
    ∧ ((∃ a ∈ p.images, isTarget a = true) → o.width = W ∧ o.height = H ∧ o.layers = L) := by
  obtain ⟨o0, o1, ea, ew, eh, el⟩ := made_area e
  obtain ⟨⟨a1, a2, a3, a4⟩, b1, b2, b3⟩ := areaAll ea
  have hle : o1.width ≤ W ∧ o1.height ≤ H ∧ o1.layers ≤ L := by
    refine ⟨?_, ?_, ?_⟩
    · rcases b1 with b | ⟨a, ha, ht, v, hv, hx⟩
      · omega
      · have := (hall a ha ht v (view_mem hv)).1; unfold extentOf at hx; simp only at hx; omega
    · rcases b2 with b | ⟨a, ha, ht, v, hv, hx⟩
      · omega
      · have := (hall a ha ht v (view_mem hv)).2.1; unfold extentOf at hx; simp only at hx; omega
    · rcases b3 with b | ⟨a, ha, ht, v, hv, hx⟩
      · omega
      · have := (hall a ha ht v (view_mem hv)).2.2; omega
  refine ⟨?_, by omega, by omega, ?_⟩
  · intro v hv
    obtain ⟨ts, hts, ho⟩ := parts_correspond hD ⟨G, c, c', w, h, e⟩
    rw [ho.views, List.mem_map] at hv
    obtain ⟨av, hav, rfl⟩ := hv
    have hm : av.1 ∈ p.images.filter isTarget := by rw [← hts.all]; exact List.mem_map_of_mem hav
    obtain ⟨m1, m2⟩ := List.mem_filter.1 hm
    have := hall av.1 m1 m2 av.2 (view_mem (hts.view av hav))
    omega
  · rintro ⟨a, ha, ht⟩
    obtain ⟨v, hv, h1, h2, h3⟩ := a4 a ha ht
    have := hall a ha ht v (view_mem hv)
    unfold extentOf at h1 h2
    simp only at h1 h2
    omega

/-- Otherwise the area is the largest extent, which the smaller attachments don't cover: a 64x64 attachment and a 32x32 one. -/
theorem area_exceeds_smaller : ∃ o c, initialise false xG 0 0
      (drawPass 1 [ImageAdder.outputColour.attach 1 0 [xView],
        ImageAdder.outputColour.attach 1 0 [⟨12, ⟨2, 37, 1, 1, 32, 32, 1⟩, .d2, 37, rng1⟩]]) 0 none Ctx.new = some (o, true, c)
    ∧ o.width = 64 ∧ ¬ FramebufferFits o := by
  have h : (initialise false xG 0 0
      (drawPass 1 [ImageAdder.outputColour.attach 1 0 [xView],
        ImageAdder.outputColour.attach 1 0 [⟨12, ⟨2, 37, 1, 1, 32, 32, 1⟩, .d2, 37, rng1⟩]]) 0 none Ctx.new).map
      (fun x => (x.2.1, x.1.width, x.1.views)) = some (true, 64, [xView, ⟨12, ⟨2, 37, 1, 1, 32, 32, 1⟩, .d2, 37, rng1⟩]) := by decide
  obtain ⟨⟨o, b, c⟩, e, h⟩ := Option.map_eq_some_iff.1 h
  simp only [Prod.mk.injEq] at h
  obtain ⟨rfl, h1, h2⟩ := h
  refine ⟨o, c, e, h1, ?_⟩
  intro hf
  have := (hf ⟨12, ⟨2, 37, 1, 1, 32, 32, 1⟩, .d2, 37, rng1⟩ (by rw [h2]; simp)).1
  rw [h1] at this
  exact absurd this (by decide)

/-- A smaller mip level too small: the shift reaches 0 where the level has one texel, e.g. level 6 of a 32x32 image. -/
theorem area_of_last_level : extentOf ⟨12, ⟨2, 37, 7, 1, 32, 64, 1⟩, .d2, 37, ⟨1, 6, 1, 0, 1⟩⟩ = (0, 1) := by decide

/-! ### The hypotheses are met -/

theorem drawing_renders (sepDS : Bool) (G : GraphSt) (p : RunPass) (cached : Option PassObj) (draw : List Nat) :
    Renders sepDS G (RunPass.drawing sepDS G p cached draw) (fun _ => cached) := ⟨64, 64, draw, fun _ _ => rfl⟩

theorem aPasses_tidy (G : GraphSt) (o : Option PassObj) : TidyViews false (fun _ => 37) xV (aPasses G o) := by
  have himg : ∀ p ∈ aPasses G o, ∀ a ∈ p.images, a.img.views = [xView] ∧ a.getImageLayout false ≠ Layout.undefined := by
    intro p hp a ha
    simp only [aPasses, RunPass.drawing, aFirst, aBlend, aSample, drawPass, List.mem_cons, List.not_mem_nil, or_false] at hp
    rcases hp with rfl | rfl | rfl <;>
      (simp only [List.mem_cons, List.not_mem_nil, or_false] at ha; subst ha; exact ⟨rfl, by decide⟩)
  refine ⟨⟨?_, ?_, ?_, ?_⟩, ?_, ?_, ?_, ?_, ?_⟩
  · rintro v rfl; rfl
  · rintro v rfl; decide
  · rintro v rfl; decide
  · rintro v w rfl rfl; exact Or.inr ⟨rfl, fun _ _ => Iff.rfl⟩
  · rintro u v rfl rfl _; rfl
  · rintro x ⟨p, hp, a, ha, hx⟩
    rw [(himg p hp a ha).1, List.mem_singleton] at hx
    subst hx
    exact ⟨rfl, by decide⟩
  · intro p hp a ha _
    exact (himg p hp a ha).2
  · intro p hp index
    simp only [aPasses, RunPass.drawing, aFirst, aBlend, aSample, drawPass, List.mem_cons, List.not_mem_nil, or_false] at hp
    rcases hp with rfl | rfl | rfl <;> simp
  · intro p hp va hva
    simp only [aPasses, RunPass.drawing, aFirst, aBlend, aSample, drawPass, List.mem_cons, List.not_mem_nil, or_false] at hp
    rcases hp with rfl | rfl | rfl <;> simp at hva

/-- The three passes above, in a first frame: all hypotheses hold, and the frame is recorded. -/
example : ∃ G' f, record ⟨false, fun _ => true⟩ xG [] (fun _ => 0) (aPasses xG none) (fun _ _ => false) [] = some (G', f)
    ∧ StreamValid (fun _ _ _ _ => 0) f.recd.cmds ∧ f.recd.cmds.length = 6 := by
  have h : (record ⟨false, fun _ => true⟩ xG [] (fun _ => 0) (aPasses xG none) (fun _ _ => false) []).map
      (fun x => x.2.recd.cmds.length) = some 6 := by decide
  obtain ⟨⟨G', f⟩, e, hl⟩ := Option.map_eq_some_iff.1 h
  refine ⟨G', f, e, ?_, hl⟩
  refine (graph_with_render_passes_valid_partial (aPasses_tidy xG none) (fun _ _ => none) ?_ _ _ [] example_honest _ [] ?_ ?_
    G' f e).1
  · intro p hp
    simp only [aPasses, List.mem_cons, List.not_mem_nil, or_false] at hp
    have hd : ∀ q : RunPass, (∀ a ∈ q.images, a.img.views = [xView] ∧ a.getImageLayout false ≠ Layout.undefined) → Declares false q := by
      intro q hq a ha
      refine ⟨(hq a ha).2, fun v hv => ?_⟩
      rw [(hq a ha).1, List.mem_singleton] at hv
      subst hv
      exact ⟨xView.range, ⟨⟨rfl, rfl⟩, fun h => absurd h (by decide), fun _ => ⟨rfl, rfl⟩⟩, by decide⟩
    rcases hp with rfl | rfl | rfl
    · exact Or.inl ⟨drawing_renders _ _ _ _ _, hd _ (by
        intro a ha
        simp only [RunPass.drawing, aFirst, drawPass, List.mem_singleton] at ha
        subst ha
        exact ⟨rfl, by decide⟩)⟩
    · exact Or.inl ⟨drawing_renders _ _ _ _ _, hd _ (by
        intro a ha
        simp only [RunPass.drawing, aBlend, drawPass, List.mem_singleton] at ha
        subst ha
        exact ⟨rfl, by decide⟩)⟩
    · exact Or.inr fun _ r => ⟨[], by simp, rfl⟩
  · intro p _ o ho
    cases ho
  · intro p r he
    refine ⟨fun o ho => (by cases ho), ?_⟩
    have hp := enters_mem he
    intro a ha _ hs
    simp only [aPasses, RunPass.drawing, aFirst, aBlend, aSample, drawPass, List.mem_cons, List.not_mem_nil, or_false] at hp
    rcases hp with rfl | rfl | rfl <;>
      (simp only [List.mem_cons, List.not_mem_nil, or_false] at ha; subst ha; exact absurd hs (by decide))

end Verif.RPass

