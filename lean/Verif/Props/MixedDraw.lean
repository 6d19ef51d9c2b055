import Verif.Spec.MixedDraw
import Verif.Props.Mixed
import Verif.Props.RenderPass
import Verif.Props.Mipmaps
/-
C92 for the passes that draw: they may draw to parts of images that other passes use whole.
-/
namespace Verif.RPass
open Verif.Rec Verif.Att Verif.Run Verif.Gpu

variable {sepDS : Bool} {fmt : Nat → Nat} {g0 : Layouts} {G : GraphSt} {pend : List Implicit}

/-- Two render targets of a tidy pass sharing a subresource are one. -/
theorem targets_one {p : RunPass} {index : Nat} (hap : TargetsApart p index)
    {ts : List (Attachment × View)} (ht : Targets p index ts) {j k : Nat} {av bw : Attachment × View}
    (hj : ts[j]? = some av) (hk : ts[k]? = some bw) {l m : Nat} (hi : av.2.image.id = bw.2.image.id)
    (ha : av.2.range.Has l m) (hb : bw.2.range.Has l m) : j = k := by
  have h1 := List.Pairwise.filter isTarget hap
  rw [← ht.all, List.pairwise_map] at h1
  rw [List.pairwise_iff_getElem] at h1
  obtain ⟨j1, ej⟩ := List.getElem?_eq_some_iff.1 hj
  obtain ⟨k1, ek⟩ := List.getElem?_eq_some_iff.1 hk
  have va := ht.view av (List.mem_of_getElem? hj)
  have vb := ht.view bw (List.mem_of_getElem? hk)
  have tgt : ∀ {cw : Attachment × View}, cw ∈ ts → isTarget cw.1 = true := by
    intro cw hc
    have : cw.1 ∈ p.images.filter isTarget := by rw [← ht.all]; exact List.mem_map_of_mem hc
    exact (List.mem_filter.1 this).2
  have ta := tgt (List.mem_of_getElem? hj)
  have tb := tgt (List.mem_of_getElem? hk)
  rcases Nat.lt_trichotomy j k with h | h | h
  · exfalso
    rcases h1 j k j1 k1 h (by rw [ej]; exact ta) (by rw [ek]; exact tb) av.2 bw.2 (by rw [ej]; exact va) (by rw [ek]; exact vb) with h2 | h2
    · exact h2 hi
    · exact h2 l m ⟨ha, hb⟩
  · exact h
  · exfalso
    rcases h1 k j k1 j1 h (by rw [ek]; exact tb) (by rw [ej]; exact ta) bw.2 av.2 (by rw [ek]; exact vb) (by rw [ej]; exact va) with h2 | h2
    · exact h2 hi.symm
    · exact h2 l m ⟨hb, ha⟩

theorem afterAll_missed : ∀ (us : List ViewUse) (h : Left) (i l m : Nat),
    (∀ w ∈ us, ¬ (i = w.view.image.id ∧ w.view.range.Has l m)) → h.afterAll us i l m = h i l m
  | [], _, _, _, _, _ => rfl
  | w :: us, h, i, l, m, hno => by
    show (h.after w).afterAll us _ _ _ = _
    rw [afterAll_missed us (h.after w) i l m fun x hx => hno x (by simp [hx])]
    unfold Left.after
    rw [if_neg (hno w (by simp))]

/-- One render pass instance, with an object whose initial layouts are UNDEFINED or true. -/
theorem base_instance {p : RunPass} (hD : Declares sepDS p)
    {index : Nat} {ts : List (Attachment × View)} (ht : Targets p index ts) (hap : TargetsApart p index)
    (hpl : ∀ av ∈ ts, PlainView sepDS fmt av.2) {o : PassObj} (ho : Corresponds sepDS o ts)
    {h : Left} {r : Rec} (b : Base fmt g0 G pend h r) {c : Ctx} (hc : c.implicit = r.ctx.implicit)
    (hcm : ∀ i l m, (∀ av ∈ ts, ¬ (i = av.2.image.id ∧ av.2.range.Has l m)) →
      c.images.at i l m = r.ctx.images.at i l m)
    (hin : ∀ (k : Nat) av e, ts[k]? = some av → o.entries[k]? = some e →
      e.input.layout = Layout.undefined ∨ InLayout fmt (execAll g0 r.cmds) av.2 e.input.layout)
    (hst : ∀ (k : Nat) av e, ts[k]? = some av → o.entries[k]? = some e → av.1.img.stencilLoadOp = LoadOp.load →
      (getAspectMask av.2.format).testBit 2 = true → e.input.layout ≠ Layout.undefined) (draw : List Nat) :
    let r1 := beginPass { r with ctx := c } o
    let r2 := endPass { r1 with cmds := r1.cmds ++ draw.map .user } o
    Base fmt g0 G pend (h.afterAll (drawUses o)) r2
    ∧ (∀ (k : Nat) av, ts[k]? = some av → Drawn ts k →
        InLayout fmt (execAll g0 r1.cmds) av.2 (av.1.getImageLayout sepDS)) := by
  intro r1 r2
  -- the attachments of the instance
  have hx : ∀ x, x ∈ o.atts ↔ ∃ (k : Nat) (av : Attachment × View) (d : Desc), ts[k]? = some av ∧ o.descs[k]? = some d ∧ x = o.att k d av.2 := by
    intro x
    rw [mem_atts]
    constructor
    · rintro ⟨k, d, v, h1, h2, rfl⟩
      rw [ho.views, List.getElem?_map] at h2
      cases hk : ts[k]? with
      | none => rw [hk] at h2; simp at h2
      | some av =>
        rw [hk] at h2
        simp only [Option.map_some, Option.some.injEq] at h2
        subst h2
        exact ⟨k, av, d, hk, h1, rfl⟩
    · rintro ⟨k, av, d, h1, h2, rfl⟩
      refine ⟨k, d, av.2, h2, ?_, rfl⟩
      rw [ho.views, List.getElem?_map, h1]
      rfl
  have hentry : ∀ e ∈ o.entries, ∃ (k : Nat) (av : Attachment × View), ts[k]? = some av ∧ o.entries[k]? = some e ∧ e.view = av.2 := by
    intro e he
    obtain ⟨k, hk⟩ := List.mem_iff_getElem?.1 he
    have hk1 := (List.getElem?_eq_some_iff.1 hk).1
    rw [ho.entries] at hk1
    have hk2 : ts[k]? = some ts[k] := List.getElem?_eq_getElem hk1
    obtain ⟨e', d, h1, h2, h3, -⟩ := ho.at' k _ hk2
    rw [hk] at h1
    cases h1
    exact ⟨k, _, hk2, hk, h3⟩
  -- GPU
  have e1 : execAll g0 r1.cmds = exec (execAll g0 r.cmds) (.beginPass o.atts o.width o.height o.layers) := execAll_snoc _ _ _
  have e2 : execAll g0 r2.cmds = exec (exec (execAll g0 r.cmds) (.beginPass o.atts o.width o.height o.layers)) (.endPass o.atts) := by
    show execAll g0 (((r.cmds ++ [_]) ++ draw.map .user) ++ [_]) = _
    rw [execAll_snoc]
    have : execAll g0 ((r.cmds ++ [Cmd.beginPass o.atts o.width o.height o.layers]) ++ draw.map .user) = exec (execAll g0 r.cmds) (.beginPass o.atts o.width o.height o.layers) := by
      rw [show execAll g0 ((r.cmds ++ [Cmd.beginPass o.atts o.width o.height o.layers]) ++ draw.map .user)
        = execAll (execAll g0 (r.cmds ++ [Cmd.beginPass o.atts o.width o.height o.layers])) (draw.map .user) from by simp [execAll]]
      rw [exec_users, execAll_snoc]
    rw [this]
  have hdur : ∀ (k : Nat) av, ts[k]? = some av → Drawn ts k →
      InLayout fmt (execAll g0 r1.cmds) av.2 (av.1.getImageLayout sepDS) := by
    intro k av hk hd a l m ha hl
    rw [e1]
    obtain ⟨e, d, g1, g2, g3, -⟩ := ho.at' k av hk
    refine (putAll_at (·.during) o.atts _ _ _ _ _).2 _ ?_ ?_
    · intro x hxm hcov j hj
      obtain ⟨k', bw, d', h1, h2, rfl⟩ := (hx x).1 hxm
      have : k = k' := targets_one hap ht hk h1 hcov.1 hl hcov.2
      subst this
      rw [hk] at h1
      cases h1
      exact (during_eq hD ht ho hk).1 j hj
    · refine ⟨_, (hx _).2 ⟨k, av, d, hk, g2, rfl⟩, rfl, hl, ?_⟩
      show Option.map _ _ ≠ none
      rw [(during_eq hD ht ho hk).2 hd]
      simp
  have hfin : ∀ (k : Nat) av e, ts[k]? = some av → o.entries[k]? = some e → ∀ a l m, av.2.range.Has l m →
      execAll g0 r2.cmds av.2.image.id a l m = e.output.layout := by
    intro k av e hk he a l m hl
    rw [e2]
    obtain ⟨e', d, g1, g2, g3, -, -, g4, -⟩ := ho.at' k av hk
    rw [he] at g1
    cases g1
    refine (putAll_at (fun x => some x.final) o.atts _ _ _ _ _).2 _ ?_ ?_
    · intro x hxm hcov j hj
      obtain ⟨k', bw, d', h1, h2, rfl⟩ := (hx x).1 hxm
      have : k = k' := targets_one hap ht hk h1 hcov.1 hl hcov.2
      subst this
      rw [g2] at h2
      cases h2
      rw [← g4]
      exact (Option.some.inj hj).symm
    · exact ⟨_, (hx _).2 ⟨k, av, d, hk, g2, rfl⟩, rfl, hl, by simp⟩
  have hother : ∀ i a l m, (∀ av ∈ ts, ¬ (i = av.2.image.id ∧ av.2.range.Has l m)) →
      execAll g0 r2.cmds i a l m = execAll g0 r.cmds i a l m := by
    intro i a l m hno
    rw [e2]
    have hno' : ∀ x ∈ o.atts, ¬ (i = x.image ∧ x.range.Has l m) := by
      intro x hxm
      obtain ⟨k, av, d, h1, h2, rfl⟩ := (hx x).1 hxm
      exact hno av (List.mem_of_getElem? h1)
    refine ((putAll_at (fun x => some x.final) o.atts _ i a l m).1 fun x hxm _ => hno' x hxm).trans ?_
    exact (putAll_at (·.during) o.atts _ i a l m).1 fun x hxm _ => hno' x hxm
  -- tracker
  have hvirt : ∀ e ∈ o.entries, getVirtualRange e.view.image e.view.viewType e.view.range = e.view.range := by
    intro e he
    obtain ⟨k, av, h1, h2, h3⟩ := hentry e he
    rw [h3]
    exact virtual_plain _ _ (hpl av (List.mem_of_getElem? h1)).view
  have hctx : r2.ctx = o.entries.foldl (fun (c : Ctx) (e : Entry) => c.setLayout e.view.image e.view.viewType e.view.range e.output)
      (o.entries.foldl (fun (c : Ctx) (e : Entry) => c.setLayout e.view.image e.view.viewType e.view.range e.input) c) := rfl
  have htr : ∀ (k : Nat) av e, ts[k]? = some av → o.entries[k]? = some e → ∀ l m, av.2.range.Has l m →
      r2.ctx.images.at av.2.image.id l m = some e.output := by
    intro k av e hk he l m hl
    rw [hctx]
    obtain ⟨e', d, g1, g2, g3, -⟩ := ho.at' k av hk
    rw [he] at g1
    cases g1
    refine (setAll_at (·.output) o.entries _ _ l m).2 _ ?_ ?_
    · intro x hxm hcov
      rw [hvirt x hxm] at hcov
      obtain ⟨k', bw, h1, h2, h3⟩ := hentry x hxm
      rw [h3] at hcov
      have : k = k' := targets_one hap ht hk h1 hcov.1 hl hcov.2
      subst this
      rw [he] at h2
      cases h2
      rfl
    · refine ⟨e, List.mem_of_getElem? he, by rw [g3], ?_⟩
      rw [hvirt e (List.mem_of_getElem? he), g3]
      exact hl
  have htro : ∀ i l m, (∀ av ∈ ts, ¬ (i = av.2.image.id ∧ av.2.range.Has l m)) →
      r2.ctx.images.at i l m = r.ctx.images.at i l m := by
    intro i l m hno
    rw [hctx]
    have hno' : ∀ e ∈ o.entries, ¬ (i = e.view.image.id ∧ (getVirtualRange e.view.image e.view.viewType e.view.range).Has l m) := by
      intro e he
      rw [hvirt e he]
      obtain ⟨k, av, h1, h2, h3⟩ := hentry e he
      rw [h3]
      exact hno av (List.mem_of_getElem? h1)
    exact ((setAll_at (·.output) o.entries _ i l m).1 hno').trans
      (((setAll_at (·.input) o.entries _ i l m).1 hno').trans (hcm i l m hno))
  have himp : r2.ctx.implicit = r.ctx.implicit := by
    rw [hctx, setAll_keeps, setAll_keeps, hc]
  have hcov : ∀ i l m, (∃ (k : Nat) (av : Attachment × View) (e : Entry), ts[k]? = some av ∧ o.entries[k]? = some e
      ∧ i = av.2.image.id ∧ av.2.range.Has l m) ∨ (∀ av ∈ ts, ¬ (i = av.2.image.id ∧ av.2.range.Has l m)) := by
    intro i l m
    by_cases hh : ∃ av ∈ ts, i = av.2.image.id ∧ av.2.range.Has l m
    · left
      obtain ⟨av, hav, hh⟩ := hh
      obtain ⟨k, hk⟩ := List.mem_iff_getElem?.1 hav
      obtain ⟨e, d, g1, -⟩ := ho.at' k av hk
      exact ⟨k, av, e, hk, g1, hh⟩
    · right
      intro av hav hx; exact hh ⟨av, hav, hx⟩
  have hout : ∀ (k : Nat) av e, ts[k]? = some av → o.entries[k]? = some e → ∀ l m, av.2.range.Has l m →
      h.afterAll (drawUses o) av.2.image.id l m = some e.output.layout := by
    intro k av e hk he l m hl
    obtain ⟨e', d, g1, g2, g3, -⟩ := ho.at' k av hk
    rw [he] at g1
    cases g1
    have := afterAll_agree (drawUses o) h ⟨e.view, e.output.layout⟩ ?_ (Or.inl ?_) l m (by rw [g3]; exact hl)
    · rw [g3] at this; exact this
    · intro w hw
      obtain ⟨f, hf, rfl⟩ := List.mem_map.1 hw
      obtain ⟨k', bw, h1, h2, h3⟩ := hentry f hf
      by_cases hkk : k = k'
      · subst hkk
        rw [he] at h2
        cases h2
        exact Or.inr rfl
      · left
        show View.Apart e.view f.view
        rw [g3, h3]
        by_cases hi : av.2.image.id = bw.2.image.id
        · right
          rintro l m ⟨ha, hb⟩
          exact hkk (targets_one hap ht hk h1 hi ha hb)
        · exact Or.inl hi
    · exact List.mem_map.2 ⟨e, List.mem_of_getElem? he, rfl⟩
  have houto : ∀ i l m, (∀ av ∈ ts, ¬ (i = av.2.image.id ∧ av.2.range.Has l m)) →
      h.afterAll (drawUses o) i l m = h i l m := by
    intro i l m hno
    refine afterAll_missed _ h i l m ?_
    intro w hw
    obtain ⟨f, hf, rfl⟩ := List.mem_map.1 hw
    obtain ⟨k', bw, h1, h2, h3⟩ := hentry f hf
    show ¬ (i = f.view.image.id ∧ f.view.range.Has l m)
    rw [h3]
    exact hno bw (List.mem_of_getElem? h1)
  refine ⟨⟨?_, ?_, ?_, ?_, ?_⟩, hdur⟩
  · funext i l m
    rcases hcov i l m with ⟨k, av, e, hk, he, rfl, hl⟩ | hno
    · rw [hout k av e hk he l m hl]
      exact leftIn_some.2 ⟨_, htr k av e hk he l m hl, rfl⟩
    · rw [houto i l m hno, ← b.tracked]
      unfold leftIn
      rw [htro i l m hno]
  · intro i a l m ha
    rcases hcov i l m with ⟨k, av, e, hk, he, rfl, hl⟩ | hno
    · rw [htr k av e hk he l m hl]
      exact hfin k av e hk he a l m hl
    · rw [htro i l m hno, hother i a l m hno]
      exact b.mirrors i a l m ha
  · show StreamValid g0 (((r.cmds ++ [_]) ++ draw.map .user) ++ [_])
    rw [streamValid_snoc, streamValid_append, streamValid_snoc]
    refine ⟨⟨⟨b.valid, ?_⟩, valid_users _ _⟩, trivial⟩
    intro x hxm
    obtain ⟨k, av, d, h1, h2, rfl⟩ := (hx x).1 hxm
    obtain ⟨e, d', g1, g2, g3, g4, g5, g6, g7, g8, g9, g10, g11, g12⟩ := ho.at' k av h1
    rw [h2] at g2
    cases g2
    refine ⟨?_, ?_, ?_⟩
    · show d.initial = _ ∨ ∀ a l m, Selects av.2.range a l m → execAll g0 r.cmds av.2.image.id a l m = d.initial
      rw [g5]
      rcases hin k av e h1 g1 with hu | hu
      · exact Or.inl hu
      · right
        intro a l m hsel
        exact hu a l m (by
          rw [← (hpl av (List.mem_of_getElem? h1)).format]
          exact aspect_of_whole ((hpl av (List.mem_of_getElem? h1)).aspect) hsel.1) hsel.2
    · show ((d.loadOp == LoadOp.load) = true ∨ (d.stencilLoadOp == LoadOp.load && (getAspectMask d.format).testBit 2) = true) →
        d.initial ≠ _
      rw [g5, g7, g9, g4]
      rintro (hl | hl)
      · intro hu
        rw [if_pos hu] at hl
        simp [LoadOp.clear, LoadOp.load] at hl
      · simp only [Bool.and_eq_true, beq_iff_eq] at hl
        exact hst k av e h1 g1 hl.1 hl.2
    · show d.final ≠ _
      rw [g6]
      exact g12
  · refine honest_mono (r := r) ?_ b.honest
    intro i l m hn
    rcases hcov i l m with ⟨k, av, e, hk, he, rfl, hl⟩ | hno
    · rw [htr k av e hk he l m hl] at hn; simp at hn
    · rw [← htro i l m hno]; exact hn
  · rw [himp]; exact b.pending

theorem createAll_ctx' {p : RunPass} {index : Nat} (hpl : ∀ a ∈ p.images, isTarget a = true → ∀ v, a.img.view index = some v → v.viewType ≠ .d3) :
    ∀ (as : List Attachment), (∀ a ∈ as, a ∈ p.images) →
    as.Pairwise (fun a b => isTarget a = true → isTarget b = true → ∀ v w, a.img.view index = some v → b.img.view index = some w → View.Apart v w) →
    ∀ (o o' : PassObj) (c c' : Ctx), foldOpt (createOne sepDS G p index) (o, c) as = some (o', c') →
    ∃ us : List (Attachment × View), us.map (·.1) = as.filter isTarget ∧ (∀ av ∈ us, av.1.img.view index = some av.2)
      ∧ c'.implicit = c.implicit ∧ c'.nextImages = c.nextImages
      ∧ (∀ i l m, (∀ av ∈ us, ¬ (i = av.2.image.id ∧ av.2.range.Has l m)) → c'.images.at i l m = c.images.at i l m)
      ∧ o'.entries = o.entries ++ us.map (entryOf sepDS G c p) := by
  intro as
  induction as with
  | nil =>
    intro _ _ o o' c c' e
    simp only [foldOpt, Option.some.injEq, Prod.mk.injEq] at e
    obtain ⟨rfl, rfl⟩ := e
    exact ⟨[], rfl, by simp, rfl, rfl, fun _ _ _ _ => rfl, by simp⟩
  | cons a as ih =>
    intro hs hpw o o' c c' e
    rw [List.pairwise_cons] at hpw
    unfold foldOpt at e
    cases e1 : createOne sepDS G p index (o, c) a with
    | none => rw [e1] at e; simp at e
    | some oc =>
      obtain ⟨o1, c1⟩ := oc
      rw [e1] at e
      simp only at e
      obtain ⟨us, u1, u2, u3, u4, u5, u6⟩ := ih (fun b hb => hs b (by simp [hb])) hpw.2 o1 o' c1 c' e
      by_cases ht : isTarget a = true
      · cases hv : a.img.view index with
        | none => simp [createOne, ht, hv] at e1
        | some v =>
          have hpl' := virtual_plain v.image v.range (hpl a (hs a (by simp)) ht v hv)
          have ec : c1 = ((getCurrentLayoutState G c v).2).setLayout v.image v.viewType v.range
              (getNextLayoutState sepDS G (getCurrentLayoutState G c v).2 p v)
              ∧ o1.entries = o.entries ++ [entryOf sepDS G c p (a, v)] := by
            unfold createOne at e1
            rw [if_pos ht, hv] at e1
            simp only [addAttach] at e1
            have hn := next_congr sepDS G c _ p v (current_other G c v).2
            split at e1
            · simp only [Option.some.injEq, Prod.mk.injEq] at e1
              obtain ⟨rfl, rfl⟩ := e1
              exact ⟨rfl, by simp only [entryOf, hn]⟩
            · simp only [Option.some.injEq, Prod.mk.injEq] at e1
              obtain ⟨rfl, rfl⟩ := e1
              exact ⟨rfl, by simp only [entryOf, hn]⟩
          obtain ⟨ec, ee⟩ := ec
          have hc1 : ∀ i l m, ¬ (i = v.image.id ∧ v.range.Has l m) → c1.images.at i l m = c.images.at i l m := by
            intro i l m hno
            rw [ec]
            simp only [Ctx.setLayout, LayoutMap.at_setState, hpl']
            rw [if_neg hno]
            exact current_cells G c v i l m (by rw [hpl']; exact hno)
          have hn1 : c1.nextImages = c.nextImages := by rw [ec]; exact (current_other G c v).2
          refine ⟨(a, v) :: us, by simp [ht, u1], ?_, ?_, u4.trans hn1, ?_, ?_⟩
          · intro av hav
            rcases List.mem_cons.1 hav with rfl | hav
            · exact hv
            · exact u2 av hav
          · rw [u3, ec]; exact (current_other G c v).1
          · intro i l m hno
            rw [u5 i l m fun av hav => hno av (by simp [hav])]
            exact hc1 i l m (hno (a, v) (by simp))
          · rw [u6, ee, List.append_assoc]
            congr 1
            simp only [List.map_cons, List.singleton_append, List.cons.injEq, true_and]
            apply List.map_congr_left
            intro bw hbw
            have hmem : bw.1 ∈ as ∧ isTarget bw.1 = true := by
              have : bw.1 ∈ us.map (·.1) := List.mem_map_of_mem hbw
              rw [u1] at this
              exact List.mem_filter.1 this
            have hvb := u2 bw hbw
            have hVb := hpl bw.1 (hs bw.1 (by simp [hmem.1])) hmem.2 bw.2 hvb
            have hap := hpw.1 bw.1 hmem.1 ht hmem.2 v bw.2 hv hvb
            have hcur : (getCurrentLayoutState G c1 bw.2).1 = (getCurrentLayoutState G c bw.2).1 := by
              apply current_congr
              intro l m hl
              rw [virtual_plain _ _ hVb] at hl
              apply hc1
              rintro ⟨h1, h2⟩
              rcases hap with h3 | h3
              · exact h3 h1.symm
              · exact h3 l m ⟨h2, hl⟩
            unfold entryOf
            rw [hcur, next_congr sepDS G c c1 p bw.2 hn1]
      · have : o1 = o ∧ c1 = c := by
          unfold createOne at e1
          rw [if_neg ht] at e1
          simp only [Option.some.injEq, Prod.mk.injEq] at e1
          exact ⟨e1.1.symm, e1.2.symm⟩
        obtain ⟨rfl, rfl⟩ := this
        exact ⟨us, by simp [ht, u1], u2, u3, u4, u5, u6⟩

/-- What `getCurrentLayoutState` answers of a settled view is true. -/
theorem current_settled {h : Left} {r : Rec} (b : Base fmt g0 G pend h r) {v : View} (hv : PlainView sepDS fmt v)
    (hs : h.Settled v) (hk : h.Untouched v → (leftIn G.inputs).Settled v ∧ (leftIn G.final.images).Settled v) :
    ((getCurrentLayoutState G r.ctx v).1.layout = Layout.undefined
      ∧ ∀ l m, v.range.Has l m → known r.ctx G v.image.id l m = none)
    ∨ InLayout fmt (execAll g0 r.cmds) v (getCurrentLayoutState G r.ctx v).1.layout
      ∧ (getCurrentLayoutState G r.ctx v).1.layout ≠ Layout.undefined := by
  have hl := current_lookup G r.ctx v
  simp only at hl
  rw [← b.tracked] at hs hk
  have htrue : ∀ x : Nat, (leftIn r.ctx.images).Untouched v →
      (∀ l m, v.range.Has l m → ∃ s, known r.ctx G v.image.id l m = some s ∧ s.layout = x) →
      InLayout fmt (execAll g0 r.cmds) v x := by
    intro x hu hkn a l m ha hr
    have hm := b.mirrors v.image.id a l m ha
    have hc := leftIn_none.1 (hu l m hr)
    obtain ⟨s, hk', rfl⟩ := hkn l m hr
    rw [hc] at hm
    exact hm.trans (b.honest v.image.id a l m s ha hk' hc)
  rcases settled_get hv.view hv.some hs with ⟨hu, e1⟩ | ⟨e1, hx⟩
  · obtain ⟨hi, hf⟩ := hk hu
    rcases settled_get hv.view hv.some hi with ⟨hiu, e2⟩ | ⟨e2, hix⟩
    · rcases settled_get hv.view hv.some hf with ⟨hfu, e3⟩ | ⟨e3, hfx⟩
      · left
        refine ⟨by rw [hl.2.2 e1 e2]; exact e3, ?_⟩
        intro l m hr
        unfold known
        rw [leftIn_none.1 (hu l m hr), leftIn_none.1 (hiu l m hr), leftIn_none.1 (hfu l m hr)]
      · right
        rw [hl.2.2 e1 e2]
        refine ⟨htrue _ hu ?_, e3⟩
        intro l m hr
        obtain ⟨t, ht, et⟩ := leftIn_some.1 (hfx l m hr)
        refine ⟨t, ?_, et⟩
        unfold known
        rw [leftIn_none.1 (hu l m hr), leftIn_none.1 (hiu l m hr), ht]
    · right
      rw [hl.2.1 e1 e2]
      refine ⟨htrue _ hu ?_, e2⟩
      intro l m hr
      obtain ⟨t, ht, et⟩ := leftIn_some.1 (hix l m hr)
      refine ⟨t, ?_, et⟩
      unfold known
      rw [leftIn_none.1 (hu l m hr), ht]
  · right
    rw [hl.1 e1]
    refine ⟨fun a l m ha hr => b.gpu ha ?_, e1⟩
    rw [← b.tracked]
    exact hx l m hr

/-- One recording of a pass that draws to settled targets. -/
theorem base_render {p : RunPass} {index : Nat} (hD : Declares sepDS p) (hap : TargetsApart p index)
    (hpl : ∀ a ∈ p.images, isTarget a = true → ∀ v, a.img.view index = some v → PlainView sepDS fmt v)
    {h : Left} {r r' : Rec} (b : Base fmt g0 G pend h r)
    (hset : ∀ a ∈ p.images, isTarget a = true → ∀ v, a.img.view index = some v →
      h.Settled v ∧ (h.Untouched v → (leftIn G.inputs).Settled v ∧ (leftIn G.final.images).Settled v))
    {w ht : Nat} {cached : Option PassObj} (hcached : ∀ o, cached = some o → MadeFor sepDS p index o ∧ Fits G r.ctx o)
    (hst : StencilKnown G r.ctx p index cached) {draw : List Nat} {o : PassObj}
    (e : recordPass sepDS G w ht p cached draw index r = some (o, r')) :
    Base fmt g0 G pend (h.afterAll (drawUses o)) r'
    ∧ ∃ ts, Targets p index ts ∧ Corresponds sepDS o ts
      ∧ (∀ (k : Nat) av, ts[k]? = some av → Drawn ts k →
        InLayout fmt (execAll g0 (r.cmds ++ [.beginPass o.atts o.width o.height o.layers])) av.2 (av.1.getImageLayout sepDS)) := by
  unfold recordPass at e
  cases e0 : initialise sepDS G w ht p index cached r.ctx with
  | none => rw [e0] at e; simp at e
  | some obc =>
    obtain ⟨o1, bn, c⟩ := obc
    rw [e0] at e
    simp only [Option.map_some, Option.some.injEq, Prod.mk.injEq] at e
    obtain ⟨rfl, rfl⟩ := e
    have hmade : MadeFor sepDS p index o1 := by
      rcases initialise_cases e0 with ⟨-, hq, -⟩ | ⟨-, hf⟩
      · exact (hcached o1 hq).1
      · exact ⟨G, r.ctx, c, w, ht, hf⟩
    obtain ⟨ts, hts, ho⟩ := parts_correspond hD hmade
    have hatt : ∀ {k : Nat} {av : Attachment × View}, ts[k]? = some av →
        av.1 ∈ p.images ∧ isTarget av.1 = true ∧ PlainView sepDS fmt av.2 ∧ (h.Settled av.2
          ∧ (h.Untouched av.2 → (leftIn G.inputs).Settled av.2 ∧ (leftIn G.final.images).Settled av.2)) := by
      intro k av hk
      have h1 : av.1 ∈ p.images.filter isTarget := by
        rw [← hts.all]; exact List.mem_map_of_mem (List.mem_of_getElem? hk)
      have h2 := List.mem_filter.1 h1
      have h3 := hts.view av (List.mem_of_getElem? hk)
      exact ⟨h2.1, h2.2, hpl av.1 h2.1 h2.2 av.2 h3, hset av.1 h2.1 h2.2 av.2 h3⟩
    -- the context and the initial layouts
    have hall : c.implicit = r.ctx.implicit
        ∧ (∀ i l m, (∀ av ∈ ts, ¬ (i = av.2.image.id ∧ av.2.range.Has l m)) → c.images.at i l m = r.ctx.images.at i l m)
        ∧ (∀ (k : Nat) av en, ts[k]? = some av → o1.entries[k]? = some en →
          en.input.layout = Layout.undefined ∨ InLayout fmt (execAll g0 r.cmds) av.2 en.input.layout)
        ∧ (∀ (k : Nat) av en, ts[k]? = some av → o1.entries[k]? = some en → av.1.img.stencilLoadOp = LoadOp.load →
          (getAspectMask av.2.format).testBit 2 = true → en.input.layout ≠ Layout.undefined) := by
      rcases initialise_cases e0 with ⟨hb, hq, hchk, hpv, hnx, rfl⟩ | ⟨hb, hf⟩
      · refine ⟨rfl, fun _ _ _ _ => rfl, ?_, ?_⟩
        · intro k av en hk he
          obtain ⟨en', d, g1, g2, g3, -⟩ := ho.at' k av hk
          rw [he] at g1
          cases g1
          obtain ⟨-, -, hV, hs, -⟩ := hatt hk
          subst hb
          have ht5 := (reuse_fits_tracked e0).2.2.2.2 en (List.mem_of_getElem? he)
          rw [g3] at ht5
          rw [← b.tracked] at hs
          rcases settled_get hV.view hV.some hs with ⟨hu, -⟩ | ⟨hne, hx⟩
          · have hun : ∀ l m, av.2.range.Has l m → r.ctx.images.at av.2.image.id l m = none :=
              fun l m hl => leftIn_none.1 (hu l m hl)
            rcases (hcached o1 hq).2 en (List.mem_of_getElem? he) (by rw [g3]; exact hun) with h1 | h1
            · exact Or.inl h1
            · right
              intro a l m ha hl
              rw [g3] at h1
              obtain ⟨s, hk1, hs⟩ := h1 l m hl
              have hmm := b.mirrors av.2.image.id a l m ha
              rw [hun l m hl] at hmm
              rw [hmm, b.honest _ a l m s ha hk1 (hun l m hl), hs]
          · right
            rw [← (ht5 hne).1]
            intro a l m ha hl
            exact b.gpu ha (by rw [← b.tracked]; exact hx l m hl)
        · intro k av en hk he hl hb2
          obtain ⟨en', d, g1, g2, g3, -⟩ := ho.at' k av hk
          rw [he] at g1
          cases g1
          obtain ⟨h1, h2, -, -⟩ := hatt hk
          exact (hst av.1 h1 h2 hl av.2 (hts.view av (List.mem_of_getElem? hk)) (by rw [← getAspectMask_eq]; exact hb2)).2.2 o1 hq en (List.mem_of_getElem? he) g3
      · obtain ⟨q1, q2, f1, f2, f3⟩ := initialise_new hf
        obtain ⟨us, u1, u2, u3, u4, u5, u6⟩ := createAll_ctx' (fun a ha hta v hv => (hpl a ha hta v hv).view) p.images
          (fun _ h => h) hap _ _ _ _ f1
        have hus : ts = us := targets_eq (p := p) (by rw [hts.all, u1]) hts.view u2
        subst hus
        have hents : o1.entries = ts.map (entryOf sepDS G r.ctx p) := by
          have h1 := (area_keeps f2).2.1
          unfold framebuffer at f3
          rw [mapM_views ts _ u1 u2] at f3
          simp only [Option.map_some, Option.some.injEq] at f3
          subst f3
          simp only at h1 ⊢
          rw [h1, u6]
          rfl
        have hen : ∀ (k : Nat) av en, ts[k]? = some av → o1.entries[k]? = some en → en = entryOf sepDS G r.ctx p av := by
          intro k av en hk he
          rw [hents, List.getElem?_map, hk] at he
          exact (Option.some.inj he).symm
        refine ⟨u3, u5, ?_, ?_⟩
        · intro k av en hk he
          rw [hen k av en hk he]
          unfold entryOf
          simp only
          by_cases hi : av.1.isInput = true
          · simp only [hi, Bool.not_true, Bool.false_eq_true, if_false]
            obtain ⟨-, -, hV, hs⟩ := hatt hk
            rcases current_settled b hV hs.1 hs.2 with h1 | h1
            · exact Or.inl h1.1
            · exact Or.inr h1.1
          · simp only [Bool.not_eq_true] at hi
            simp [hi, makeLayoutState]
        · intro k av en hk he hl hb2
          obtain ⟨h1, h2, hV, hs⟩ := hatt hk
          obtain ⟨s1, s2, -⟩ := hst av.1 h1 h2 hl av.2 (hts.view av (List.mem_of_getElem? hk)) (by rw [← getAspectMask_eq]; exact hb2)
          rw [hen k av en hk he]
          unfold entryOf
          simp only [s1, Bool.not_true, Bool.false_eq_true, if_false]
          rcases current_settled b hV hs.1 hs.2 with h3 | h3
          · obtain ⟨l, m, hlm⟩ := av.2.range.nonEmpty_iff.1 hV.some
            exact absurd (h3.2 l m hlm) (s2 l m hlm)
          · exact h3.2
    obtain ⟨c1, c2, c3, c4⟩ := hall
    obtain ⟨i1, i2⟩ := base_instance hD hts hap (fun av hav => by
      obtain ⟨k, hk⟩ := List.mem_iff_getElem?.1 hav
      exact (hatt hk).2.2.1) ho b c1 c2 c3 c4 draw
    exact ⟨i1, ts, hts, ho, i2⟩

/-- Uses apart from each other that are orderly find their views settled at once. -/
theorem orderly_all {i k : Left} : ∀ (us : List ViewUse) (h : Left), us.Pairwise (fun u w => View.Apart u.view w.view) →
    Orderly i k h us → ∀ u ∈ us, h.Settled u.view ∧ (h.Untouched u.view → i.Settled u.view ∧ k.Settled u.view)
  | [], _, _, _, u, hu => absurd hu (by simp)
  | w :: us, h, hp, ho, u, hu => by
    rw [List.pairwise_cons] at hp
    rcases List.mem_cons.1 hu with rfl | hu
    · exact ⟨ho.1, ho.2.1⟩
    · have := orderly_all us _ hp.2 ho.2.2 u hu
      have same : ∀ l m, u.view.range.Has l m → (h.after w) u.view.image.id l m = h u.view.image.id l m := by
        intro l m hl
        unfold Left.after
        rw [if_neg]
        rintro ⟨h1, h2⟩
        rcases hp.1 u hu with h3 | h3
        · exact h3 h1.symm
        · exact h3 l m ⟨h2, hl⟩
      refine ⟨?_, fun hun => this.2 fun l m hl => (same l m hl).trans (hun l m hl)⟩
      rcases this.1 with h1 | ⟨x, hx, h1⟩
      · exact Or.inl fun l m hl => (same l m hl).symm.trans (h1 l m hl)
      · exact Or.inr ⟨x, hx, fun l m hl => (same l m hl).symm.trans (h1 l m hl)⟩

end Verif.RPass

namespace Verif.Mip
open Verif.Rec Verif.Att Verif.Run Verif.Gpu

variable {sepDS : Bool} {fmt : Nat → Nat} {g0 : Layouts} {G : GraphSt} {pend : List Implicit}

theorem cell_has (v : View) (layer lev l m : Nat) : (levelView v layer lev).range.Has l m ↔ l = layer ∧ m = lev := by
  simp [levelView, Range.Has]; omega

theorem cell_plain {v : View} (hf : v.image.format = fmt v.image.id) {ty : ViewType} (ht : ty ≠ .d3) (layer lev : Nat) :
    PlainView sepDS fmt { levelView v layer lev with viewType := ty } :=
  ⟨hf, ht, Or.inl rfl, by simp [levelView, Range.NonEmpty]⟩

theorem after_cell (h : Left) (v : View) (layer lev x i a b : Nat) :
    (h.after ⟨levelView v layer lev, x⟩) i a b = if i = v.image.id ∧ a = layer ∧ b = lev then some x else h i a b := by
  by_cases hc : i = v.image.id ∧ a = layer ∧ b = lev
  · rw [if_pos hc]
    exact if_pos ⟨hc.1, (cell_has v layer lev a b).2 hc.2⟩
  · rw [if_neg hc]
    exact if_neg fun hx => hc ⟨hx.1, (cell_has v layer lev a b).1 hx.2⟩

theorem after_comm (h : Left) (v : View) (layer : Nat) {l k : Nat} (hn : l ≠ k) (x y : Nat) :
    (h.after ⟨levelView v layer l, x⟩).after ⟨levelView v layer k, y⟩
      = (h.after ⟨levelView v layer k, y⟩).after ⟨levelView v layer l, x⟩ := by
  funext i a b
  simp only [after_cell]
  by_cases h1 : i = v.image.id ∧ a = layer ∧ b = k
  · rw [if_pos h1, if_neg (by omega), if_pos h1]
  · rw [if_neg h1]
    by_cases h2 : i = v.image.id ∧ a = layer ∧ b = l
    · rw [if_pos h2, if_pos h2]
    · rw [if_neg h2, if_neg h2, if_neg h1]

theorem after_cell_settled {h : Left} {v : View} {layer l k : Nat} (hn : l ≠ k) (x : Nat)
    (hs : h.Settled (levelView v layer k)) : (h.after ⟨levelView v layer l, x⟩).Settled (levelView v layer k) := by
  have same : ∀ a b, (levelView v layer k).range.Has a b →
      (h.after ⟨levelView v layer l, x⟩) v.image.id a b = h v.image.id a b := by
    intro a b hb
    rw [cell_has] at hb
    unfold Left.after
    rw [if_neg]
    rintro ⟨-, h2⟩
    rw [cell_has] at h2
    omega
  rcases hs with h1 | ⟨y, hy, h1⟩
  · exact Or.inl fun a b hb => (same a b hb).trans (h1 a b hb)
  · exact Or.inr ⟨y, hy, fun a b hb => (same a b hb).trans (h1 a b hb)⟩

theorem base_level (en : Nat → Bool) {v : View} {ty : ViewType} {next : LayoutState} {layer l : Nat} {h : Left} {r : Rec}
    (b : Base fmt g0 G pend (h.after ⟨levelView v layer l, Layout.transferSrc⟩) r)
    (hs : h.Settled (levelView v layer (l + 1))) (hf : v.image.format = fmt v.image.id) (ht : ty ≠ .d3)
    (hn : next.layout ≠ Layout.undefined) :
    Base fmt g0 G pend ((h.after ⟨levelView v layer l, next.layout⟩).after ⟨levelView v layer (l + 1),
        if l + 1 = v.image.mipLevels - 1 then next.layout else Layout.transferSrc⟩)
      (levelStep ⟨sepDS, en⟩ v.image ty next layer r (l + 1)) := by
  have hasp : getAspectMask v.image.format = aspects v.image.format := getAspectMask_eq _
  unfold levelStep
  simp only [Nat.add_sub_cancel, hasp]
  have b1 := base_barrier en b (cell_plain (sepDS := sepDS) hf ht layer (l + 1))
    (after_cell_settled (by omega) _ hs) Layout.undefined (Or.inl rfl) (w := makeLayoutState Layout.transferDst)
    (by decide) false
  change Base fmt g0 G pend ((h.after ⟨levelView v layer l, Layout.transferSrc⟩).after ⟨levelView v layer (l + 1), Layout.transferDst⟩)
    (r.imageBarrier ⟨sepDS, en⟩ v.image ty (sub (aspects v.image.format) layer (l + 1)) Layout.undefined
      (makeLayoutState Layout.transferDst) false) at b1
  generalize r.imageBarrier ⟨sepDS, en⟩ v.image ty (sub (aspects v.image.format) layer (l + 1)) Layout.undefined
    (makeLayoutState Layout.transferDst) false = r1 at b1 ⊢
  have gpu : ∀ lev lay, ((h.after ⟨levelView v layer l, Layout.transferSrc⟩).after
        ⟨levelView v layer (l + 1), Layout.transferDst⟩) v.image.id layer lev = some lay →
      ∀ a x y, Selects (sub (aspects v.image.format) layer lev) a x y → execAll g0 r1.cmds v.image.id a x y = lay := by
    rintro lev lay hl a x y ⟨ha, hx⟩
    rw [sub_has] at hx
    obtain ⟨rfl, rfl⟩ := hx
    exact b1.gpu (by rw [← hf]; exact ha) hl
  have b2 := base_emit b1 (.blitImage v.image.id Layout.transferSrc (sub (aspects v.image.format) layer l)
      (corners v.image l) v.image.id Layout.transferDst (sub (aspects v.image.format) layer (l + 1))
      (corners v.image (l + 1)) filterLinear) (fun _ => rfl) ⟨gpu l _ (by
        rw [after_cell, after_cell, if_neg (by omega), if_pos ⟨rfl, rfl, rfl⟩]), gpu (l + 1) _ (by
        rw [after_cell, if_pos ⟨rfl, rfl, rfl⟩])⟩
  generalize r1.emit (.blitImage v.image.id Layout.transferSrc (sub (aspects v.image.format) layer l)
      (corners v.image l) v.image.id Layout.transferDst (sub (aspects v.image.format) layer (l + 1))
      (corners v.image (l + 1)) filterLinear) = r2 at b2 ⊢
  rw [after_comm _ _ _ (by omega)] at b2
  have touched : ∀ (k : Left) lev x, ¬ (k.after ⟨levelView v layer lev, x⟩).Untouched (levelView v layer lev) :=
    fun k lev x => after_touched k _ (by simp [levelView, Range.NonEmpty])
  have b3 := base_barrier en b2 (cell_plain (sepDS := sepDS) hf ht layer l)
    (after_settled _ ⟨levelView v layer l, Layout.transferSrc⟩ (show Layout.transferSrc ≠ Layout.undefined by decide)) Layout.transferSrc (Or.inr (touched _ _ _))
    hn false
  change Base fmt g0 G pend (((h.after ⟨levelView v layer (l + 1), Layout.transferDst⟩).after ⟨levelView v layer l, Layout.transferSrc⟩).after ⟨levelView v layer l, next.layout⟩)
    (r2.imageBarrier ⟨sepDS, en⟩ v.image ty (sub (aspects v.image.format) layer l) Layout.transferSrc next false) at b3
  generalize r2.imageBarrier ⟨sepDS, en⟩ v.image ty (sub (aspects v.image.format) layer l) Layout.transferSrc next false = r3
    at b3 ⊢
  rw [after_after, after_comm _ _ _ (by omega)] at b3
  have fin : ∀ w : LayoutState, w.layout ≠ Layout.undefined →
      Base fmt g0 G pend ((h.after ⟨levelView v layer l, next.layout⟩).after ⟨levelView v layer (l + 1), w.layout⟩)
        (r3.imageBarrier ⟨sepDS, en⟩ v.image ty (sub (aspects v.image.format) layer (l + 1)) Layout.transferDst w false) := by
    intro w hw
    have b4 := base_barrier en b3 (cell_plain (sepDS := sepDS) hf ht layer (l + 1))
      (after_settled _ ⟨levelView v layer (l + 1), Layout.transferDst⟩ (show Layout.transferDst ≠ Layout.undefined by decide)) Layout.transferDst (Or.inr (touched _ _ _))
      hw false
    change Base fmt g0 G pend (((h.after ⟨levelView v layer l, next.layout⟩).after ⟨levelView v layer (l + 1), Layout.transferDst⟩).after ⟨levelView v layer (l + 1), w.layout⟩) _ at b4
    rw [after_after] at b4
    exact b4
  by_cases hl : l + 1 = v.image.mipLevels - 1
  · rw [if_pos hl, if_pos hl]; exact fin next hn
  · rw [if_neg hl, if_neg hl]; exact fin (makeLayoutState Layout.transferSrc) (by decide)

theorem base_levels (en : Nat → Bool) {v : View} {ty : ViewType} {next : LayoutState} {layer : Nat}
    (hf : v.image.format = fmt v.image.id) (ht : ty ≠ .d3) (hn : next.layout ≠ Layout.undefined) :
    ∀ (n l : Nat) (h : Left) (r : Rec), l + (n + 1) = v.image.mipLevels - 1 →
    Base fmt g0 G pend (h.after ⟨levelView v layer l, Layout.transferSrc⟩) r →
    (∀ k, l < k → k < v.image.mipLevels → h.Settled (levelView v layer k)) →
    Base fmt g0 G pend (h.afterAll ((List.range' l (n + 2)).map fun k => ⟨levelView v layer k, next.layout⟩))
      ((List.range' (l + 1) (n + 1)).foldl (levelStep ⟨sepDS, en⟩ v.image ty next layer) r)
  | 0, l, h, r, e, b, hs => by
    have := base_level (sepDS := sepDS) (next := next) en b (hs (l + 1) (by omega) (by omega)) hf ht hn
    rw [if_pos (by omega)] at this
    exact this
  | n + 1, l, h, r, e, b, hs => by
    have := base_level (sepDS := sepDS) (next := next) en b (hs (l + 1) (by omega) (by omega)) hf ht hn
    rw [if_neg (by omega)] at this
    rw [show List.range' (l + 1) (n + 1 + 1) = (l + 1) :: List.range' (l + 1 + 1) (n + 1) from List.range'_succ .., List.foldl_cons]
    have ih := base_levels en hf ht hn n (l + 1) (h.after ⟨levelView v layer l, next.layout⟩) _ (by omega) this
      (fun k h1 h2 => after_cell_settled (by omega) _ (hs k (by omega) h2))
    rw [show List.range' l (n + 1 + 2) = l :: List.range' (l + 1) (n + 2) from List.range'_succ ..]
    exact ih

theorem levelUses_apart (v : View) (layer lay : Nat) (n : Nat) :
    (levelUses v layer lay n).Pairwise (fun u w => View.Apart u.view w.view) := by
  unfold levelUses
  rw [List.pairwise_map]
  refine (List.pairwise_lt_range' (s := 0) (n := n)).imp ?_
  intro a c hac
  right
  rintro l m ⟨h1, h2⟩
  simp only [cell_has] at h1 h2
  omega

theorem base_layers (en : Nat → Bool) {v : View} {ty : ViewType} {next : LayoutState}
    (hf : v.image.format = fmt v.image.id) (hd : v.viewType ≠ .d3) (ht : ty ≠ .d3) (hn : next.layout ≠ Layout.undefined)
    (h2 : 2 ≤ v.image.mipLevels) :
    ∀ (layers : List Nat) (h : Left) (r : Rec), Base fmt g0 G pend h r →
    Orderly (leftIn G.inputs) (leftIn G.final.images) h
      (layers.flatMap fun layer => levelUses v layer next.layout v.image.mipLevels) →
    Base fmt g0 G pend (h.afterAll (layers.flatMap fun layer => levelUses v layer next.layout v.image.mipLevels))
      (layers.foldl (layerStep ⟨sepDS, en⟩ G v ty next) r)
  | [], h, r, b, _ => b
  | layer :: layers, h, r, b, ho => by
    rw [List.flatMap_cons, orderly_append] at ho
    rw [List.flatMap_cons, afterAll_append, List.foldl_cons]
    refine base_layers en hf hd ht hn h2 layers _ _ ?_ ho.2
    have hall := RPass.orderly_all _ h (levelUses_apart v layer next.layout _) ho.1
    have hmem : ∀ k, k < v.image.mipLevels → (⟨levelView v layer k, next.layout⟩ : ViewUse)
        ∈ levelUses v layer next.layout v.image.mipLevels := by
      intro k hk
      unfold levelUses
      rw [List.mem_map]
      exact ⟨k, by simp [List.mem_range']; omega, rfl⟩
    have h0 := hall _ (hmem 0 (by omega))
    have hasp : getAspectMask v.image.format = aspects v.image.format := getAspectMask_eq _
    obtain ⟨h', b1, s1, u1, a1⟩ := base_current b (cell_plain (sepDS := sepDS) hf hd layer 0) h0.1 h0.2
    unfold layerStep
    simp only [hasp]
    have b2 := base_barrier en b1 (cell_plain (sepDS := sepDS) hf ht layer 0) s1 _ u1 (w := srcState) (by decide) false
    have e1 : h'.after ⟨levelView v layer 0, srcState.layout⟩ = h.after ⟨levelView v layer 0, Layout.transferSrc⟩ := a1 _
    change Base fmt g0 G pend (h'.after ⟨levelView v layer 0, srcState.layout⟩) _ at b2
    rw [e1] at b2
    have := base_levels en (sepDS := sepDS) (ty := ty) (next := next) hf ht hn (v.image.mipLevels - 2) 0 h _ (by omega) b2
      (fun k _ hk => (hall _ (hmem k hk)).1)
    rw [show v.image.mipLevels - 2 + 2 = v.image.mipLevels by omega,
      show v.image.mipLevels - 2 + 1 = v.image.mipLevels - 1 by omega] at this
    exact this

end Verif.Mip

namespace Verif.RPass
open Verif.Rec Verif.Att Verif.Run Verif.Gpu

variable {sepDS : Bool} {fmt : Nat → Nat} {g0 : Layouts} {G : GraphSt} {pend : List Implicit}

/-- The object `recordPass` uses was made for the pass. -/
theorem made_of_record {p : RunPass} {index w ht : Nat} {cached : Option PassObj} {draw : List Nat} {o : PassObj} {r r' : Rec}
    (hcached : ∀ o, cached = some o → MadeFor sepDS p index o)
    (e : recordPass sepDS G w ht p cached draw index r = some (o, r')) : MadeFor sepDS p index o := by
  unfold recordPass at e
  cases e0 : initialise sepDS G w ht p index cached r.ctx with
  | none => rw [e0] at e; simp at e
  | some obc =>
    obtain ⟨o1, bn, c⟩ := obc
    rw [e0] at e
    simp only [Option.map_some, Option.some.injEq, Prod.mk.injEq] at e
    obtain ⟨rfl, -⟩ := e
    rcases initialise_cases e0 with ⟨-, hq, -⟩ | ⟨-, hf⟩
    · exact hcached o1 hq
    · exact ⟨G, r.ctx, c, w, ht, hf⟩

/-- Each target of the pass is used by the object made for it. -/
theorem target_used {p : RunPass} {index : Nat} {ts : List (Attachment × View)} (ht : Targets p index ts) {o : PassObj}
    (ho : Corresponds sepDS o ts) {a : Attachment} (ha : a ∈ p.images) (hta : isTarget a = true) {v : View}
    (hv : a.img.view index = some v) : ∃ x, (⟨v, x⟩ : ViewUse) ∈ drawUses o := by
  have : a ∈ ts.map (·.1) := by rw [ht.all]; exact List.mem_filter.2 ⟨ha, hta⟩
  obtain ⟨av, hav, rfl⟩ := List.mem_map.1 this
  have h1 := ht.view av hav
  rw [hv] at h1
  cases h1
  obtain ⟨k, hk⟩ := List.mem_iff_getElem?.1 hav
  obtain ⟨e, d, g1, g2, g3, -⟩ := ho.at' k av hk
  exact ⟨e.output.layout, List.mem_map.2 ⟨e, List.mem_of_getElem? g1, by rw [g3]⟩⟩

theorem drawUses_apart {p : RunPass} {index : Nat} (hap : TargetsApart p index) {ts : List (Attachment × View)}
    (ht : Targets p index ts) {o : PassObj} (ho : Corresponds sepDS o ts) :
    (drawUses o).Pairwise (fun u w => View.Apart u.view w.view) := by
  unfold drawUses
  rw [List.pairwise_map, List.pairwise_iff_getElem]
  intro j k hj hk hjk
  have at' : ∀ j (hj : j < o.entries.length), ∃ av : Attachment × View, ts[j]? = some av ∧ o.entries[j].view = av.2 := by
    intro j hj
    have hj1 := hj
    rw [ho.entries] at hj1
    have hj2 : ts[j]? = some ts[j] := List.getElem?_eq_getElem hj1
    obtain ⟨e', d, h1, h2, h3, -⟩ := ho.at' j _ hj2
    rw [List.getElem?_eq_getElem hj] at h1
    cases h1
    exact ⟨_, hj2, h3⟩
  obtain ⟨av, a1, a2⟩ := at' j hj
  obtain ⟨bw, b1, b2⟩ := at' k hk
  simp only [a2, b2]
  by_cases hi : av.2.image.id = bw.2.image.id
  · right
    rintro l m ⟨ha, hb⟩
    have := targets_one hap ht a1 b1 hi ha hb
    omega
  · exact Or.inl hi

/-- The body of a pass that draws. -/
theorem base_draws {p : RunPass} {index : Nat} {w ht : Nat} {cached : Option PassObj} {draw : List Nat} {o : PassObj} {r r' : Rec}
    (e : recordPass sepDS G w ht p cached draw index r = some (o, r')) (hD : Declares sepDS p) (hap : TargetsApart p index)
    (hcached : ∀ o, cached = some o → MadeFor sepDS p index o ∧ Fits G r.ctx o) (hst : StencilKnown G r.ctx p index cached)
    {h : Left} (b : Base fmt g0 G pend h r) (hv : ∀ u ∈ drawUses o, PlainView sepDS fmt u.view)
    (hor : Orderly (leftIn G.inputs) (leftIn G.final.images) h (drawUses o)) :
    Base fmt g0 G pend (h.afterAll (drawUses o)) r'
    ∧ ∃ ts, Targets p index ts ∧ Corresponds sepDS o ts
      ∧ (∀ (k : Nat) av, ts[k]? = some av → Drawn ts k →
        InLayout fmt (execAll g0 (r.cmds ++ [.beginPass o.atts o.width o.height o.layers])) av.2 (av.1.getImageLayout sepDS)) := by
  obtain ⟨ts, hts, ho⟩ := parts_correspond hD (made_of_record (fun o h => (hcached o h).1) e)
  refine base_render hD hap ?_ b ?_ hcached hst e
  · intro a ha hta v hav
    obtain ⟨x, hx⟩ := target_used hts ho ha hta hav
    exact hv _ hx
  · intro a ha hta v hav
    obtain ⟨x, hx⟩ := target_used hts ho ha hta hav
    exact orderly_all _ h (drawUses_apart hap hts ho) hor _ hx

end Verif.RPass

namespace Verif.Run
open Verif.Rec Verif.Att Verif.Gpu Verif.RPass

variable {sepDS : Bool} {fmt : Nat → Nat} {g0 : Layouts} {G : GraphSt} {pend : List Implicit} {passes : List RunPass} {body : RunPass → List ViewUse}
  {en : Nat → Bool} {index : Nat → Nat}

/-- The body of a pass of any kind. -/
theorem base_uses {p : RunPass} {index : Nat} {us : List ViewUse} {r : Rec} (hb : BodyUses sepDS fmt G p index r us) {h : Left}
    (hd : ∀ u ∈ attachUses sepDS index p, ∀ l m, u.view.range.Has l m → h u.view.image.id l m = some u.layout)
    (b : Base fmt g0 G pend h r)
    (hv : ∀ u ∈ us, PlainView sepDS fmt u.view ∧ u.layout ≠ Layout.undefined)
    (ho : Orderly (leftIn G.inputs) (leftIn G.final.images) h us) :
    Base fmt g0 G pend (h.afterAll us) (p.body index r) := by
  cases hb with
  | does hb => exact base_body' hb hd b hv ho
  | draws made eb hD hap hfit hst =>
    rw [eb]
    exact (base_draws made hD hap hfit hst b (fun u hu => (hv u hu).1) ho).1
  | mipmaps eb kind levels =>
    rename_i v ty en output
    rw [eb]
    unfold Mip.generateMipmaps Mip.generate
    simp only
    cases hl : v.range.layers with
    | zero => exact b
    | succ n =>
      rw [hl] at hv ho
      have h0 := hv ⟨Mip.levelView v v.range.baseLayer 0, (getNextLayoutState sepDS G r.ctx p v).layout⟩ (by
        rw [List.mem_flatMap]
        refine ⟨v.range.baseLayer, by simp [List.mem_range'], ?_⟩
        unfold Mip.levelUses
        exact List.mem_map.2 ⟨0, by simp [List.mem_range']; omega, rfl⟩)
      exact Mip.base_layers en h0.1.format h0.1.view kind h0.2 levels _ _ r b ho

/-- The entry of a pass satisfies what its body needs. -/
theorem run_recordInto (hM : MixedRun sepDS fmt en index passes body) {p : RunPass} (hp : p ∈ passes)
    {h : Left} {f f' : Frame} (b : Base fmt g0 G [] h f.recd)
    (ho : Orderly (leftIn G.inputs) (leftIn G.final.images) h
      (if en p.id then attachUses sepDS (index p.id) p ++ body p else []))
    (hb : en p.id = true → ∀ r, prepare ⟨sepDS, en⟩ G p (index p.id) f.recd = some r →
      BodyUses sepDS fmt G p (index p.id) r (body p))
    (e : recordInto ⟨sepDS, en⟩ G p (index p.id) f = some f') :
    Base fmt g0 G [] (h.afterAll (if en p.id then attachUses sepDS (index p.id) p ++ body p else [])) f'.recd := by
  unfold recordInto registerAll at e
  rw [hM.alone p hp] at e
  simp only [List.foldl_nil] at e
  by_cases hen : en p.id = true
  · rw [if_pos hen] at e ho ⊢
    split at e
    · have hr : (if (!f.initialised p.id (index p.id)) = true then f.initialise p (index p.id) else f).recd = f.recd := by
        split <;> rfl
      rw [hr] at e
      cases e1 : prepare ⟨sepDS, en⟩ G p (index p.id) f.recd with
      | none => rw [e1] at e; simp at e
      | some r =>
        rw [e1] at e
        simp only [Option.some.injEq] at e
        subst e
        rw [orderly_append] at ho
        rw [afterAll_append]
        have b1 := base_prepare en b (fun u hu => hM.plain p hp u (by simp [hu])) ho.1 e1
        exact base_uses (hb hen r e1) (attach_held _ (hM.agree p hp)) b1 (fun u hu => hM.plain p hp u (by simp [hu])) ho.2
    · simp at e
  · rw [if_neg hen] at e ⊢
    simp only [Option.some.injEq] at e
    subst e
    exact b

theorem run_loop (hM : MixedRun sepDS fmt en index passes body) :
    ∀ (ps : List RunPass), (∀ p ∈ ps, p ∈ passes) → ∀ (h : Left) (f : Frame), Base fmt g0 G [] h f.recd →
    Orderly (leftIn G.inputs) (leftIn G.final.images) h (graphUses sepDS en index (fun p _ => body p) ps) →
    (∀ q r, Enters ⟨sepDS, en⟩ G index ps f q r → BodyUses sepDS fmt G q (index q.id) r (body q)) →
    (∀ f', recordLoop ⟨sepDS, en⟩ G index ps f = some f' →
      Base fmt g0 G [] (h.afterAll (graphUses sepDS en index (fun p _ => body p) ps)) f'.recd)
    ∧ (∀ q r, Enters ⟨sepDS, en⟩ G index ps f q r → ∃ h' : Left,
      Base fmt g0 G [] (h'.afterAll (attachUses sepDS (index q.id) q)) r
      ∧ Orderly (leftIn G.inputs) (leftIn G.final.images) (h'.afterAll (attachUses sepDS (index q.id) q)) (body q)) := by
  intro ps
  induction ps with
  | nil =>
    intro _ h f b _ _
    refine ⟨?_, fun q r he => absurd he (by simp [Enters])⟩
    intro f' e
    simp only [recordLoop, Option.some.injEq] at e
    subst e; exact b
  | cons p next ih =>
    intro hs h f b ho hb
    have hp := hs p (by simp)
    have hk := announce_keeps ⟨sepDS, en⟩ G p next f.recd.ctx
    have b1 := base_ctx b _ hk.1 hk.2
    have ih' := ih fun x hx => hs x (by simp [hx])
    have eu : graphUses sepDS en index (fun p _ => body p) (p :: next)
        = (if en p.id then attachUses sepDS (index p.id) p ++ body p else [])
          ++ graphUses sepDS en index (fun p _ => body p) next := by
      simp [graphUses]
    rw [eu, orderly_append] at ho
    rw [eu, afterAll_append]
    have hb1 : en p.id = true → ∀ r, prepare ⟨sepDS, en⟩ G p (index p.id)
        { f.recd with ctx := announce ⟨sepDS, en⟩ G p next f.recd.ctx } = some r →
        BodyUses sepDS fmt G p (index p.id) r (body p) := fun hen r e => hb p r (Or.inl ⟨rfl, hen, e⟩)
    refine ⟨?_, ?_⟩
    · intro f' e
      unfold recordLoop at e
      simp only at e
      split at e
      · simp at e
      · rename_i f1 e1
        exact (ih' _ f1 (run_recordInto hM hp (f := { f with recd := _ }) b1 ho.1 hb1 e1) ho.2
          (fun q r he => hb q r (Or.inr ⟨f1, e1, he⟩))).1 f' e
    · rintro q r (⟨rfl, hen, e⟩ | ⟨f1, e1, he⟩)
      · have ho1 := ho.1
        have hen' : en q.id = true := hen
        rw [if_pos hen', orderly_append] at ho1
        have b2 := base_prepare en b1 (fun u hu => hM.plain q hp u (by simp [hu])) ho1.1 e
        exact ⟨h, b2, ho1.2⟩
      · exact (ih' _ f1 (run_recordInto hM hp (f := { f with recd := _ }) b1 ho.1 hb1 e1) ho.2
          (fun q r he => hb q r (Or.inr ⟨f1, e1, he⟩))).2 q r he

/-- C92 (partial: no implicit actions, no 3D views, whole aspects; the render pass objects used again fit), bodies of passes
that draw, transfer, make mipmaps or do anything through the context: if each use finds its view settled, every body that is
entered starts after valid commands and with every image its attachments declare in the declared layout, and while it draws,
every target it draws to is in the layout its attachment declares. -/
theorem parts_drawn_ready_partial (hM : MixedRun sepDS fmt en index passes body) (deps : List Ctx)
    (hH : ∀ i a l m s, HasAspect (fmt i) a → known (startCtx deps) G i l m = some s → g0 i a l m = s.layout)
    (ho : Orderly (leftIn G.inputs) (leftIn G.final.images) (leftIn (startCtx deps).images)
      (graphUses sepDS en index (fun p _ => body p) passes))
    (ini : Nat → Nat → Bool) (log : List Event)
    (hb : ∀ q r, Enters ⟨sepDS, en⟩ G index passes (frameStart sepDS deps passes ini log) q r →
      BodyUses sepDS fmt G q (index q.id) r (body q))
    (q : RunPass) (r : Rec) (he : Enters ⟨sepDS, en⟩ G index passes (frameStart sepDS deps passes ini log) q r) :
    StreamValid g0 r.cmds ∧ Ready sepDS fmt (execAll g0 r.cmds) q (index q.id)
    ∧ ∀ (w ht : Nat) (cached : Option PassObj) (draw : List Nat) (o : PassObj) (r' : Rec),
      recordPass sepDS G w ht q cached draw (index q.id) r = some (o, r') → body q = drawUses o → Declares sepDS q →
      TargetsApart q (index q.id) →
      (∀ o, cached = some o → MadeFor sepDS q (index q.id) o ∧ Fits G r.ctx o) →
      StencilKnown G r.ctx q (index q.id) cached →
      ∃ ts, Targets q (index q.id) ts ∧ Corresponds sepDS o ts
      ∧ ∀ (k : Nat) av, ts[k]? = some av → Drawn ts k →
        InLayout fmt (execAll g0 (r.cmds ++ [.beginPass o.atts o.width o.height o.layers])) av.2
          (av.1.getImageLayout sepDS) := by
  have hk := firstAnnounce_keeps sepDS passes (startCtx deps)
  obtain ⟨h', b, hor⟩ := (run_loop hM passes (fun _ h => h) _ (frameStart sepDS deps passes ini log)
    (base_start deps hH _ hk.1 hk.2) ho hb).2 q r he
  have hq := enters_mem he
  refine ⟨b.valid, base_ready (hM.agree q hq) b, ?_⟩
  intro w ht cached draw o r' e eb hD hap hfit hst
  rw [eb] at hor
  exact (base_draws e hD hap hfit hst b
    (fun u hu => (hM.plain q hq u (List.mem_append_right _ (by rw [eb]; exact hu))).1) hor).2

/-- C92 (partial, as above), streams of graphs whose passes draw, transfer, make mipmaps or do anything through the context:
if each use finds its view settled, the stream is valid, and the layouts the graph remembers are exactly those the uses left,
which are those of the GPU once the stream executed. -/
theorem parts_drawn_valid_partial (hM : MixedRun sepDS fmt en index passes body) (deps : List Ctx)
    (hH : ∀ i a l m s, HasAspect (fmt i) a → known (startCtx deps) G i l m = some s → g0 i a l m = s.layout)
    (ho : Orderly (leftIn G.inputs) (leftIn G.final.images) (leftIn (startCtx deps).images)
      (graphUses sepDS en index (fun p _ => body p) passes))
    (ini : Nat → Nat → Bool) (log : List Event)
    (hb : ∀ q r, Enters ⟨sepDS, en⟩ G index passes (frameStart sepDS deps passes ini log) q r →
      BodyUses sepDS fmt G q (index q.id) r (body q)) (G' : GraphSt) (f : Frame)
    (e : record ⟨sepDS, en⟩ G deps index passes ini log = some (G', f)) :
    StreamValid g0 f.recd.cmds
    ∧ leftIn G'.final.images = (leftIn (startCtx deps).images).afterAll (graphUses sepDS en index (fun p _ => body p) passes)
    ∧ (∀ i a l m x, HasAspect (fmt i) a →
        (leftIn (startCtx deps).images).afterAll (graphUses sepDS en index (fun p _ => body p) passes) i l m = some x →
        execAll g0 f.recd.cmds i a l m = x)
    ∧ G'.inputs = G.inputs := by
  unfold record at e
  simp only at e
  split at e
  · simp at e
  · rename_i f1 e1
    simp only [Option.some.injEq, Prod.mk.injEq] at e
    obtain ⟨rfl, rfl⟩ := e
    have hk := firstAnnounce_keeps sepDS passes (startCtx deps)
    have b := (run_loop hM passes (fun _ h => h) _ (frameStart sepDS deps passes ini log)
      (base_start deps hH _ hk.1 hk.2) ho hb).1 f1 e1
    exact ⟨b.valid, b.tracked, fun i a l m x ha hx => b.gpu ha hx, rfl⟩

/-- Executions in a row of a graph whose passes draw, transfer, make mipmaps or do anything through the context. The passes
are given for each execution since those that draw keep objects between executions; `body` says what the bodies use. Each use
finds its view settled, given what the previous execution left. -/
inductive MixedRuns (sepDS : Bool) (fmt : Nat → Nat) :
    GraphSt → (Nat → Nat → Bool) → List Event → Layouts → List (Layouts × List Cmd) → Prop
  | done (G ini log g) : MixedRuns sepDS fmt G ini log g []
  | step {G ini log g g' G' f out} (x : Exec) (passes : List RunPass) (body : RunPass → List ViewUse) (hg : Restored G g g')
      (hM : MixedRun sepDS fmt x.enabled x.index passes body)
      (ho : Orderly (leftIn G.inputs) (leftIn G.final.images) .nothing
        (graphUses sepDS x.enabled x.index (fun p _ => body p) passes))
      (hb : ∀ q r, Enters ⟨sepDS, x.enabled⟩ G x.index passes (frameStart sepDS [] passes ini log) q r →
        BodyUses sepDS fmt G q (x.index q.id) r (body q))
      (e : record ⟨sepDS, x.enabled⟩ G [] x.index passes ini log = some (G', f))
      (rest : MixedRuns sepDS fmt G' f.initialised f.log (execAll g' f.recd.cmds) out) :
      MixedRuns sepDS fmt G ini log g ((g', f.recd.cmds) :: out)

/-- C92 (partial, as above) over any number of executions, whatever is enabled in each: all the streams are valid. -/
theorem parts_drawn_executions_partial {G : GraphSt} {ini : Nat → Nat → Bool} {log : List Event} {g : Layouts}
    {out : List (Layouts × List Cmd)} (h : MixedRuns sepDS fmt G ini log g out) :
    (∀ i a l m s, HasAspect (fmt i) a → G.final.images.at i l m = some s → g i a l m = s.layout) →
    ∀ o ∈ out, StreamValid o.1 o.2 := by
  induction h with
  | done => intro _ o ho; simp at ho
  | step x passes body hg hM hor hb e rest ih =>
    intro htrue o ho
    have hH := (honest_restored (V := fun _ => False) (fun _ h => h.elim) (fun _ h => h.elim) htrue hg).true'
    obtain ⟨h1, h2, h3, h4⟩ := parts_drawn_valid_partial hM [] hH hor _ _ hb _ _ e
    rcases List.mem_cons.1 ho with rfl | ho
    · exact h1
    · refine ih ?_ o ho
      intro i a l m s ha hs
      refine h3 i a l m s.layout ha ?_
      rw [← h2]
      exact leftIn_some.2 ⟨s, hs, rfl⟩

end Verif.Run
