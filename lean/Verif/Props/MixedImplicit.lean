import Verif.Spec.MixedImplicit
import Verif.Props.MixedDraw
import Verif.Props.MixedDrawn
/-
C92 with actions registered for disabled passes.
-/
namespace Verif.Run
open Verif.Rec Verif.Att Verif.Gpu Verif.RPass

variable {sepDS : Bool} {fmt : Nat → Nat} {g0 : Layouts} {G : GraphSt} {pend : List Implicit}

theorem base_pend {h : Left} {r : Rec} (b : Base fmt g0 G pend h r) (q : List Implicit) :
    Base fmt g0 G q h { r with ctx := { r.ctx with implicit := q } } :=
  ⟨b.tracked, b.mirrors, b.valid, b.honest, rfl⟩

theorem base_final (en : Nat → Bool) {h : Left} {r : Rec} (b : Base fmt g0 G pend h r) {v : View} {final : Nat}
    (hv : PlainView sepDS fmt v) (hs : h.Settled v) :
    Base fmt g0 G pend (h.afterAll (finalUse v final)) (r.finalBarrier ⟨sepDS, en⟩ v final) := by
  unfold finalUse Rec.finalBarrier
  by_cases hf : final = Layout.undefined
  · rw [if_pos hf]
    simp only [hf, bne_self_eq_false, Bool.false_eq_true, if_false]
    exact b
  · rw [if_neg hf, if_pos (by simpa using hf)]
    exact base_barrier en b hv hs Layout.undefined (Or.inl rfl) (w := makeLayoutState final) hf false

theorem base_two (en : Nat → Bool) {h : Left} {r : Rec} (b : Base fmt g0 G pend h r) {src dst : View} {final : Nat} {c : Cmd}
    (hx : ∀ g, exec g c = g)
    (hc : ∀ g, Valid g c ↔ (∀ a l m, Selects (firstLayer src.range) a l m → g src.image.id a l m = Layout.transferSrc)
      ∧ (∀ a l m, Selects (firstLayer dst.range) a l m → g dst.image.id a l m = Layout.transferDst))
    (hap : View.Apart src dst) (hs : PlainView sepDS fmt src) (hd : PlainView sepDS fmt dst) {i k : Left}
    (ho : Orderly i k h (⟨src, Layout.transferSrc⟩ :: ⟨dst, Layout.transferDst⟩ :: finalUse dst final)) :
    Base fmt g0 G pend (h.afterAll (⟨src, Layout.transferSrc⟩ :: ⟨dst, Layout.transferDst⟩ :: finalUse dst final))
      ((((r.viewBarrier ⟨sepDS, en⟩ src Layout.undefined (makeLayoutState Layout.transferSrc)).viewBarrier ⟨sepDS, en⟩ dst
        Layout.undefined (makeLayoutState Layout.transferDst)).emit c).finalBarrier ⟨sepDS, en⟩ dst final) := by
  obtain ⟨o1, -, o2, -, -⟩ := ho
  have b1 := base_barrier (w := makeLayoutState Layout.transferSrc) en b hs o1 Layout.undefined (Or.inl rfl) (by decide) false
  have b2 := base_barrier (w := makeLayoutState Layout.transferDst) en b1 hd o2 Layout.undefined (Or.inl rfl) (by decide) false
  refine base_final en (base_emit b2 c hx ((hc _).2 ⟨?_, ?_⟩)) hd
    (after_settled _ ⟨dst, Layout.transferDst⟩ (show Layout.transferDst ≠ Layout.undefined by decide))
  · intro a l m hsel
    have hsel := firstLayer_selects hs.some hsel
    refine b2.gpu ?_ ?_
    · have := aspect_of_whole hs.aspect hsel.1
      rw [hs.format] at this
      exact this
    · unfold Left.after
      rw [if_neg, if_pos ⟨rfl, hsel.2⟩]
      · rfl
      · rintro ⟨h1, h2⟩
        rcases hap with h3 | h3
        · exact h3 h1
        · exact h3 l m ⟨hsel.2, h2⟩
  · intro a l m hsel
    have hsel := firstLayer_selects hd.some hsel
    refine b2.gpu ?_ ?_
    · have := aspect_of_whole hd.aspect hsel.1
      rw [hd.format] at this
      exact this
    · unfold Left.after
      rw [if_pos ⟨rfl, hsel.2⟩]
      rfl

/-- An action is done. -/
theorem base_claim (en : Nat → Bool) {i k : Left} : ∀ (n : Nat) {pend : List Implicit} {h : Left} {r : Rec} (v : View),
    Base fmt g0 G pend h r → (∀ t ∈ pend, ActionApart t.action) →
    (∀ u ∈ (claimN en n pend v).1, PlainView sepDS fmt u.view) → Orderly i k h (claimN en n pend v).1 →
    Base fmt g0 G (claimN en n pend v).2 (h.afterAll (claimN en n pend v).1) (Rec.runImplicitN ⟨sepDS, en⟩ n r v)
    ∧ ∀ t ∈ (claimN en n pend v).2, t ∈ pend
  | 0, pend, h, r, v, b, _, _, _ => ⟨b, fun _ ht => ht⟩
  | n + 1, pend, h, r, v, b, hap, hv, ho => by
    unfold Rec.runImplicitN claimN at *
    rw [b.pending]
    have ef : (Implicit.isFor v) = fun t => t.view.id == v.id := rfl
    rw [ef]
    cases hf : pend.find? (fun t => t.view.id == v.id) with
    | none =>
      rw [hf] at hv ho
      exact ⟨b, fun _ ht => ht⟩
    | some t =>
      rw [hf] at hv ho
      simp only at hv ho ⊢
      have bl := base_pend b (pend.eraseP fun t => t.view.id == v.id)
      have hsub : ∀ x ∈ pend.eraseP (fun t => t.view.id == v.id), x ∈ pend := fun x hx => List.mem_of_mem_eraseP hx
      have hat := hap t (List.mem_of_find?_eq_some hf)
      by_cases hen : en t.pass = true
      · simp only [hen, if_true] at hv ho ⊢
        exact ⟨bl, hsub⟩
      · simp only [hen, Bool.false_eq_true, if_false] at hv ho ⊢
        generalize hl : pend.eraseP (fun t => t.view.id == v.id) = left at *
        cases ha : t.action with
        | nothing =>
          exact ⟨bl, hsub⟩
        | user x =>
          exact ⟨base_emit bl (.user x) (fun _ => rfl) trivial, hsub⟩
        | copy src dst w ht final =>
          rw [ha] at hv ho hat
          simp only [actionSource, actionUses] at hv ho ⊢
          rw [orderly_append] at ho
          obtain ⟨b1, h1⟩ := base_claim en n src bl (fun x hx => hap x (hsub x hx))
            (fun u hu => hv u (List.mem_append_left _ hu)) ho.1
          refine ⟨?_, fun x hx => hsub x (h1 x hx)⟩
          rw [afterAll_append]
          exact base_two en b1 (fun _ => rfl) (fun _ => Iff.rfl) hat (hv ⟨src, Layout.transferSrc⟩ (by simp))
            (hv ⟨dst, Layout.transferDst⟩ (by simp)) ho.2
        | blit src dst sx sy sw sh dx dy dw dh fl final =>
          rw [ha] at hv ho hat
          simp only [actionSource, actionUses] at hv ho ⊢
          rw [orderly_append] at ho
          obtain ⟨b1, h1⟩ := base_claim en n src bl (fun x hx => hap x (hsub x hx))
            (fun u hu => hv u (List.mem_append_left _ hu)) ho.1
          refine ⟨?_, fun x hx => hsub x (h1 x hx)⟩
          rw [afterAll_append]
          exact base_two en b1 (fun _ => rfl) (fun _ => Iff.rfl) hat (hv ⟨src, Layout.transferSrc⟩ (by simp))
            (hv ⟨dst, Layout.transferDst⟩ (by simp)) ho.2
        | clear dst x final =>
          rw [ha] at hv ho
          simp only [actionSource, actionUses] at hv ho ⊢
          refine ⟨?_, hsub⟩
          have hd := hv ⟨dst, Layout.transferDst⟩ (by simp)
          have b1 := base_barrier (w := makeLayoutState Layout.transferDst) en bl hd ho.1 Layout.undefined (Or.inl rfl)
            (by decide) false
          refine base_final en (base_emit b1 (.clearImage _ _ _ _ _) (fun _ => rfl) ?_) hd
            (after_settled _ ⟨dst, Layout.transferDst⟩ (show Layout.transferDst ≠ Layout.undefined by decide))
          intro asp l m hsel
          refine b1.gpu ?_ ?_
          · have := aspect_of_whole hd.aspect hsel.1
            rw [hd.format] at this
            exact this
          · unfold Left.after
            rw [if_pos ⟨rfl, hsel.2⟩]
            rfl

/-- An attachment's pending actions. -/
theorem base_claimAt (en : Nat → Bool) {index : Nat} {a : Attachment} {h : Left} {r : Rec} (b : Base fmt g0 G pend h r)
    (hap : ∀ t ∈ pend, ActionApart t.action) (hv : ∀ u ∈ (claimAt en index pend a).1, PlainView sepDS fmt u.view) {i k : Left}
    (ho : Orderly i k h (claimAt en index pend a).1) {v : View} (hvw : a.img.view index = some v) :
    Base fmt g0 G (claimAt en index pend a).2 (h.afterAll (claimAt en index pend a).1) (r.runImplicit ⟨sepDS, en⟩ v)
    ∧ ∀ t ∈ (claimAt en index pend a).2, t ∈ pend := by
  unfold claimAt claim at *
  rw [hvw] at hv ho ⊢
  unfold Rec.runImplicit
  rw [b.pending]
  exact base_claim en _ v b hap hv ho

/-- All image attachments. -/
theorem base_imageUses (en : Nat → Bool) {index : Nat} : ∀ (as : List Attachment) {pend : List Implicit} {h : Left} {r r' : Rec},
    Base fmt g0 G pend h r → (∀ t ∈ pend, ActionApart t.action) →
    (∀ u ∈ (imageUses sepDS en index pend as).1, PlainView sepDS fmt u.view ∧ u.layout ≠ Layout.undefined) →
    Orderly (leftIn G.inputs) (leftIn G.final.images) h (imageUses sepDS en index pend as).1 →
    foldOpt (recordImage ⟨sepDS, en⟩ G index) r as = some r' →
    Base fmt g0 G (imageUses sepDS en index pend as).2 (h.afterAll (imageUses sepDS en index pend as).1) r'
    ∧ ∀ t ∈ (imageUses sepDS en index pend as).2, t ∈ pend := by
  intro as
  induction as with
  | nil =>
    intro pend h r r' b _ _ _ e
    simp only [foldOpt, Option.some.injEq] at e
    subst e
    exact ⟨b, fun _ ht => ht⟩
  | cons a as ih =>
    intro pend h r r' b hap hv ho e
    unfold foldOpt at e
    unfold imageUses at hv ho ⊢
    simp only at hv ho ⊢
    cases e1 : recordImage ⟨sepDS, en⟩ G index r a with
    | none => rw [e1] at e; simp at e
    | some r1 =>
      rw [e1] at e
      rw [orderly_append] at ho
      cases hvw : a.img.view index with
      | none => unfold recordImage at e1; rw [hvw] at e1; simp at e1
      | some v =>
        obtain ⟨bc, hc⟩ := base_claimAt en b hap (fun u hu => (hv u (List.mem_append_left _ hu)).1) ho.1 hvw
        obtain ⟨h', b', eh, o'⟩ := base_recordImage' en
          (fun w hw => by rw [hvw] at hw; cases hw; exact bc)
          (fun u hu => hv u (List.mem_append_right _ (List.mem_append_left _ hu))) ho.2 e1
        obtain ⟨b2, h2⟩ := ih b' (fun t ht => hap t (hc t ht))
          (fun u hu => hv u (List.mem_append_right _ (List.mem_append_right _ hu))) o' e
        refine ⟨?_, fun t ht => hc t (h2 t ht)⟩
        rw [afterAll_append, afterAll_append]
        rw [eh] at b2
        exact b2

/-- What attachments declare lasts. -/
theorem lasting_held (en : Nat → Bool) {index : Nat} : ∀ (as : List Attachment) (pend : List Implicit) (h : Left),
    Lasting sepDS en index pend as → ∀ a ∈ as, ∀ u ∈ ownUse sepDS index a, ∀ l m, u.view.range.Has l m →
      h.afterAll (imageUses sepDS en index pend as).1 u.view.image.id l m = some u.layout := by
  intro as
  induction as with
  | nil => intro _ _ _ a ha; simp at ha
  | cons b as ih =>
    intro pend h hl a ha u hu l m hm
    unfold Lasting at hl
    unfold imageUses
    simp only
    rw [afterAll_append, afterAll_append]
    rcases List.mem_cons.1 ha with rfl | ha
    · refine afterAll_agree _ _ u (hl.1 u hu) (Or.inr ?_) l m hm
      intro l m hm
      have : ownUse sepDS index a = [u] := by
        unfold ownUse at hu ⊢
        generalize (if moved a then (a.img.view index).map fun v => (⟨v, a.getImageLayout sepDS⟩ : ViewUse) else none) = x at hu ⊢
        cases x with
        | none => simp at hu
        | some y => simp only [Option.toList_some, List.mem_singleton] at hu; rw [hu]; rfl
      rw [this]
      show (Left.after _ u) _ _ _ = _
      unfold Left.after
      rw [if_pos ⟨rfl, hm⟩]
    · exact ih _ _ hl.2 a ha u hu l m hm

theorem attach_own {index : Nat} {p : RunPass} {u : ViewUse} (hu : u ∈ attachUses sepDS index p) :
    ∃ a ∈ p.images, u ∈ ownUse sepDS index a := by
  unfold attachUses at hu
  rw [List.mem_filterMap] at hu
  obtain ⟨a, ha, e⟩ := hu
  exact ⟨a, ha, by unfold ownUse; rw [e]; simp⟩

theorem base_prepared (en : Nat → Bool) {index : Nat} {p : RunPass} {h : Left} {r r' : Rec} (b : Base fmt g0 G pend h r)
    (hap : ∀ t ∈ pend, ActionApart t.action)
    (hv : ∀ u ∈ (imageUses sepDS en index pend p.images).1, PlainView sepDS fmt u.view ∧ u.layout ≠ Layout.undefined)
    (ho : Orderly (leftIn G.inputs) (leftIn G.final.images) h (imageUses sepDS en index pend p.images).1)
    (hl : Lasting sepDS en index pend p.images)
    (e : prepare ⟨sepDS, en⟩ G p index r = some r') :
    Base fmt g0 G (imageUses sepDS en index pend p.images).2 (h.afterAll (imageUses sepDS en index pend p.images).1) r'
    ∧ (∀ t ∈ (imageUses sepDS en index pend p.images).2, t ∈ pend)
    ∧ ∀ u ∈ attachUses sepDS index p, ∀ l m, u.view.range.Has l m →
      h.afterAll (imageUses sepDS en index pend p.images).1 u.view.image.id l m = some u.layout := by
  unfold prepare at e
  cases e1 : foldOpt (recordImage ⟨sepDS, en⟩ G index) r p.images with
  | none => rw [e1] at e; simp at e
  | some r1 =>
    rw [e1] at e
    obtain ⟨b1, h1⟩ := base_imageUses en p.images b hap hv ho e1
    refine ⟨base_recordBuffers p.compute index p.buffers b1 e, h1, ?_⟩
    intro u hu
    obtain ⟨a, ha, hu'⟩ := attach_own hu
    exact lasting_held en p.images pend h hl a ha u hu'

theorem held_ready {index : Nat} {p : RunPass} {h : Left} {r : Rec} (b : Base fmt g0 G pend h r)
    (hd : ∀ u ∈ attachUses sepDS index p, ∀ l m, u.view.range.Has l m → h u.view.image.id l m = some u.layout) :
    Ready sepDS fmt (execAll g0 r.cmds) p index := by
  intro a ha hm v hv asp l m hasp hl
  exact b.gpu hasp (hd _ (mem_attachUses (sepDS := sepDS) ha hm hv) l m hl)

theorem base_register {h : Left} {r : Rec} (b : Base fmt g0 G pend h r) (p : RunPass) :
    Base fmt g0 G (pend ++ registered p) h (registerAll p r) := by
  unfold registerAll registered
  generalize p.implicitActions = l
  induction l generalizing pend r with
  | nil => simpa using b
  | cons va l ih =>
    rw [List.foldl_cons, List.map_cons]
    have := ih (pend := pend ++ [⟨p.id, va.1, va.2⟩]) (r := r.register ⟨p.id, va.1, va.2⟩)
      ⟨b.tracked, b.mirrors, b.valid, b.honest, by show r.ctx.implicit ++ _ = _; rw [b.pending]⟩
    simpa using this

variable {passes : List RunPass} {body : RunPass → List ViewUse} {en : Nat → Bool} {index : Nat → Nat}

theorem registered_apart {p : RunPass} (h : ∀ va ∈ p.implicitActions, ActionApart va.2) (hap : ∀ t ∈ pend, ActionApart t.action) :
    ∀ t ∈ pend ++ registered p, ActionApart t.action := by
  intro t ht
  rcases List.mem_append.1 ht with ht | ht
  · exact hap t ht
  · obtain ⟨va, hva, rfl⟩ := List.mem_map.1 ht
    exact h va hva

theorem subst_loop : ∀ (ps : List RunPass), (∀ p ∈ ps, ∀ va ∈ p.implicitActions, ActionApart va.2) →
    ∀ (pend : List Implicit) (h : Left) (f : Frame), Base fmt g0 G pend h f.recd → (∀ t ∈ pend, ActionApart t.action) →
    (∀ u ∈ frameUses sepDS en index body pend ps, PlainView sepDS fmt u.view ∧ u.layout ≠ Layout.undefined) →
    FrameLasting sepDS en index pend ps →
    Orderly (leftIn G.inputs) (leftIn G.final.images) h (frameUses sepDS en index body pend ps) →
    (∀ q r, Enters ⟨sepDS, en⟩ G index ps f q r → BodyUses sepDS fmt G q (index q.id) r (body q)) →
    (∀ f', recordLoop ⟨sepDS, en⟩ G index ps f = some f' →
      ∃ pend', Base fmt g0 G pend' (h.afterAll (frameUses sepDS en index body pend ps)) f'.recd)
    ∧ (∀ q r, Enters ⟨sepDS, en⟩ G index ps f q r → ∃ (pend' : List Implicit) (h' : Left),
      Base fmt g0 G pend' h' r
      ∧ (∀ u ∈ attachUses sepDS (index q.id) q, ∀ l m, u.view.range.Has l m → h' u.view.image.id l m = some u.layout)
      ∧ (∀ u ∈ body q, PlainView sepDS fmt u.view)
      ∧ Orderly (leftIn G.inputs) (leftIn G.final.images) h' (body q)) := by
  intro ps
  induction ps with
  | nil =>
    intro _ pend h f b _ _ _ _ _
    refine ⟨?_, fun q r he => absurd he (by simp [Enters])⟩
    intro f' e
    simp only [recordLoop, Option.some.injEq] at e
    subst e; exact ⟨pend, b⟩
  | cons p next ih =>
    intro hact pend h f b hap hv hl ho hb
    have hk := announce_keeps ⟨sepDS, en⟩ G p next f.recd.ctx
    have b1 := base_ctx b _ hk.1 hk.2
    have ih' := ih fun x hx => hact x (List.mem_cons_of_mem _ hx)
    have hap' := fun (P : List Implicit) (hP : ∀ t ∈ P, ActionApart t.action) =>
      registered_apart (hact p (by simp)) hP
    unfold frameUses at hv ho ⊢
    unfold FrameLasting at hl
    by_cases hen : en p.id = true
    · rw [if_pos hen] at hv ho hl ⊢
      rw [orderly_append, orderly_append] at ho
      have hb1 : ∀ r, prepare ⟨sepDS, en⟩ G p (index p.id)
          { f.recd with ctx := announce ⟨sepDS, en⟩ G p next f.recd.ctx } = some r →
          BodyUses sepDS fmt G p (index p.id) r (body p) := fun r e => hb p r (Or.inl ⟨rfl, hen, e⟩)
      have step : ∀ f1, recordInto ⟨sepDS, en⟩ G p (index p.id)
          { f with recd := { f.recd with ctx := announce ⟨sepDS, en⟩ G p next f.recd.ctx } } = some f1 →
          Base fmt g0 G ((imageUses sepDS en (index p.id) pend p.images).2 ++ registered p)
            ((h.afterAll (imageUses sepDS en (index p.id) pend p.images).1).afterAll (body p)) f1.recd
          ∧ ∀ t ∈ (imageUses sepDS en (index p.id) pend p.images).2 ++ registered p, ActionApart t.action := by
        intro f1 e
        unfold recordInto at e
        rw [if_pos (show (⟨sepDS, en⟩ : Env).enabled p.id = true from hen)] at e
        split at e
        · generalize hff : (if (!({ f with recd := { f.recd with ctx := announce ⟨sepDS, en⟩ G p next f.recd.ctx } } :
            Frame).initialised p.id (index p.id)) = true then _ else _ : Frame) = ff at e
          have hr : ff.recd = { f.recd with ctx := announce ⟨sepDS, en⟩ G p next f.recd.ctx } := by
            rw [← hff]; split <;> rfl
          simp only at e
          rw [hr] at e
          cases e1 : prepare ⟨sepDS, en⟩ G p (index p.id) { f.recd with ctx := announce ⟨sepDS, en⟩ G p next f.recd.ctx } with
          | none => rw [e1] at e; simp at e
          | some r =>
            rw [e1] at e
            simp only [Option.some.injEq] at e
            subst e
            obtain ⟨b2, h2, h3⟩ := base_prepared en b1 hap (fun u hu => hv u (by simp [hu])) ho.1 hl.1 e1
            exact ⟨base_register (base_uses (hb1 r e1) h3 b2 (fun u hu => hv u (by simp [hu])) ho.2.1) p,
              hap' _ fun t ht => hap t (h2 t ht)⟩
        · simp at e
      refine ⟨?_, ?_⟩
      · intro f' e
        unfold recordLoop at e
        simp only at e
        split at e
        · simp at e
        · rename_i f1 e1
          obtain ⟨b2, h2⟩ := step f1 e1
          rw [afterAll_append, afterAll_append]
          exact (ih' _ _ f1 b2 h2 (fun u hu => hv u (by simp [hu])) hl.2 ho.2.2
            (fun q r he => hb q r (Or.inr ⟨f1, e1, he⟩))).1 f' e
      · rintro q r (⟨rfl, -, e⟩ | ⟨f1, e1, he⟩)
        · obtain ⟨b2, -, h3⟩ := base_prepared en b1 hap (fun u hu => hv u (by simp [hu])) ho.1 hl.1 e
          exact ⟨_, _, b2, h3, fun u hu => (hv u (by simp [hu])).1, ho.2.1⟩
        · obtain ⟨b2, h2⟩ := step f1 e1
          exact (ih' _ _ f1 b2 h2 (fun u hu => hv u (by simp [hu])) hl.2 ho.2.2
            (fun q r he => hb q r (Or.inr ⟨f1, e1, he⟩))).2 q r he
    · rw [if_neg hen] at hv ho hl ⊢
      have step : ∀ f1, recordInto ⟨sepDS, en⟩ G p (index p.id)
          { f with recd := { f.recd with ctx := announce ⟨sepDS, en⟩ G p next f.recd.ctx } } = some f1 →
          Base fmt g0 G (pend ++ registered p) h f1.recd := by
        intro f1 e
        unfold recordInto at e
        rw [if_neg (show ¬ (⟨sepDS, en⟩ : Env).enabled p.id = true from hen)] at e
        simp only [Option.some.injEq] at e
        subst e
        exact base_register b1 p
      refine ⟨?_, ?_⟩
      · intro f' e
        unfold recordLoop at e
        simp only at e
        split at e
        · simp at e
        · rename_i f1 e1
          exact (ih' _ _ f1 (step f1 e1) (hap' _ hap) hv hl ho (fun q r he => hb q r (Or.inr ⟨f1, e1, he⟩))).1 f' e
      · rintro q r (⟨rfl, hq, -⟩ | ⟨f1, e1, he⟩)
        · exact absurd hq hen
        · exact (ih' _ _ f1 (step f1 e1) (hap' _ hap) hv hl ho (fun q r he => hb q r (Or.inr ⟨f1, e1, he⟩))).2 q r he

/-- Without actions these are the uses of `graphUses`. -/
theorem frameUses_graphUses (h : ∀ p ∈ passes, p.implicitActions = []) :
    frameUses sepDS en index body [] passes = graphUses sepDS en index (fun p _ => body p) passes := by
  have key : ∀ (as : List Attachment) (x : Nat), imageUses sepDS en x [] as
      = (as.filterMap fun a => if moved a then (a.img.view x).map fun v => (⟨v, a.getImageLayout sepDS⟩ : ViewUse) else none, []) := by
    intro as x
    induction as with
    | nil => rfl
    | cons a as ih =>
      have hc : claimAt en x [] a = ([], []) := by
        unfold claimAt
        split <;> rfl
      unfold imageUses
      simp only [hc, ih, List.nil_append]
      rw [attachUses_cons]
      rfl
  induction passes with
  | nil => rfl
  | cons p ps ih =>
    have hr : registered p = [] := by unfold registered; rw [h p (by simp)]; rfl
    unfold frameUses
    simp only [key, hr, List.append_nil, ih fun q hq => h q (List.mem_cons_of_mem _ hq)]
    unfold graphUses attachUses
    rw [List.flatMap_cons]
    by_cases hen : en p.id = true
    · simp [hen]
    · simp [hen]

/-! ### C92 -/

/-- C92 (partial: no 3D views, whole aspects; the render pass objects used again fit), with actions registered for disabled
passes: if each use, those of the actions run included, finds its view settled, every body that is entered starts after valid
commands and with every image its attachments declare in the declared layout, and while it draws, every target it draws to is
in the layout its attachment declares. -/
theorem parts_substituted_ready_partial (hM : SubstitutedRun sepDS fmt en index passes body) (deps : List Ctx)
    (hH : ∀ i a l m s, HasAspect (fmt i) a → known (startCtx deps) G i l m = some s → g0 i a l m = s.layout)
    (ho : Orderly (leftIn G.inputs) (leftIn G.final.images) (leftIn (startCtx deps).images)
      (frameUses sepDS en index body [] passes))
    (ini : Nat → Nat → Bool) (log : List Event)
    (hb : ∀ q r, Enters ⟨sepDS, en⟩ G index passes (frameStart sepDS deps passes ini log) q r →
      BodyUses sepDS fmt G q (index q.id) r (body q))
    (q : RunPass) (r : Rec) (he : Enters ⟨sepDS, en⟩ G index passes (frameStart sepDS deps passes ini log) q r) :
    StreamValid g0 r.cmds ∧ Ready sepDS fmt (execAll g0 r.cmds) q (index q.id)
    ∧ ∀ (w ht : Nat) (cached : Option PassObj) (draw : List Nat) (o : PassObj) (r' : Rec),
      recordPass sepDS G w ht q cached draw (index q.id) r = some (o, r') → body q = drawUses o → Declares sepDS q →
      TargetsApart q (index q.id) →
      (∀ o, cached = some o → MadeFor sepDS q (index q.id) o ∧ Fits G r.ctx o) →
      StencilKnown G r.ctx q (index q.id) cached →
      ∃ ts, Targets q (index q.id) ts ∧ Corresponds sepDS o ts
      ∧ ∀ (k : Nat) av, ts[k]? = some av → Drawn ts k →
        InLayout fmt (execAll g0 (r.cmds ++ [.beginPass o.atts o.width o.height o.layers])) av.2
          (av.1.getImageLayout sepDS) := by
  have hk := firstAnnounce_keeps sepDS passes (startCtx deps)
  obtain ⟨P, h', b, hd, hv, hor⟩ := (subst_loop passes hM.apart [] _ (frameStart sepDS deps passes ini log)
    (base_start deps hH _ hk.1 hk.2) (by simp) hM.plain hM.lasting ho hb).2 q r he
  refine ⟨b.valid, held_ready b hd, ?_⟩
  intro w ht cached draw o r' e eb hD hap hfit hst
  rw [eb] at hor hv
  exact (base_draws e hD hap hfit hst b hv hor).2

/-- C92 (partial, as above), streams: if each use, those of the actions run included, finds its view settled, the stream is
valid, and the layouts the graph remembers are exactly those the uses left, which are those of the GPU once the stream
executed. -/
theorem parts_substituted_valid_partial (hM : SubstitutedRun sepDS fmt en index passes body) (deps : List Ctx)
    (hH : ∀ i a l m s, HasAspect (fmt i) a → known (startCtx deps) G i l m = some s → g0 i a l m = s.layout)
    (ho : Orderly (leftIn G.inputs) (leftIn G.final.images) (leftIn (startCtx deps).images)
      (frameUses sepDS en index body [] passes))
    (ini : Nat → Nat → Bool) (log : List Event)
    (hb : ∀ q r, Enters ⟨sepDS, en⟩ G index passes (frameStart sepDS deps passes ini log) q r →
      BodyUses sepDS fmt G q (index q.id) r (body q)) (G' : GraphSt) (f : Frame)
    (e : record ⟨sepDS, en⟩ G deps index passes ini log = some (G', f)) :
    StreamValid g0 f.recd.cmds
    ∧ leftIn G'.final.images = (leftIn (startCtx deps).images).afterAll (frameUses sepDS en index body [] passes)
    ∧ (∀ i a l m x, HasAspect (fmt i) a →
        (leftIn (startCtx deps).images).afterAll (frameUses sepDS en index body [] passes) i l m = some x →
        execAll g0 f.recd.cmds i a l m = x)
    ∧ G'.inputs = G.inputs := by
  unfold record at e
  simp only at e
  split at e
  · simp at e
  · rename_i f1 e1
    simp only [Option.some.injEq, Prod.mk.injEq] at e
    obtain ⟨rfl, rfl⟩ := e
    have hk := firstAnnounce_keeps sepDS passes (startCtx deps)
    obtain ⟨P, b⟩ := (subst_loop passes hM.apart [] _ (frameStart sepDS deps passes ini log)
      (base_start deps hH _ hk.1 hk.2) (by simp) hM.plain hM.lasting ho hb).1 f1 e1
    exact ⟨b.valid, b.tracked, fun i a l m x ha hx => b.gpu ha hx, rfl⟩

/-- Executions in a row, as `MixedRuns`, of passes that may register actions. -/
inductive SubstitutedRuns (sepDS : Bool) (fmt : Nat → Nat) :
    GraphSt → (Nat → Nat → Bool) → List Event → Layouts → List (Layouts × List Cmd) → Prop
  | done (G ini log g) : SubstitutedRuns sepDS fmt G ini log g []
  | step {G ini log g g' G' f out} (x : Exec) (passes : List RunPass) (body : RunPass → List ViewUse) (hg : Restored G g g')
      (hM : SubstitutedRun sepDS fmt x.enabled x.index passes body)
      (ho : Orderly (leftIn G.inputs) (leftIn G.final.images) .nothing
        (frameUses sepDS x.enabled x.index body [] passes))
      (hb : ∀ q r, Enters ⟨sepDS, x.enabled⟩ G x.index passes (frameStart sepDS [] passes ini log) q r →
        BodyUses sepDS fmt G q (x.index q.id) r (body q))
      (e : record ⟨sepDS, x.enabled⟩ G [] x.index passes ini log = some (G', f))
      (rest : SubstitutedRuns sepDS fmt G' f.initialised f.log (execAll g' f.recd.cmds) out) :
      SubstitutedRuns sepDS fmt G ini log g ((g', f.recd.cmds) :: out)

/-- C92 (partial, as above) over any number of executions, whatever is enabled in each: all the streams are valid. -/
theorem parts_substituted_executions_partial {G : GraphSt} {ini : Nat → Nat → Bool} {log : List Event} {g : Layouts}
    {out : List (Layouts × List Cmd)} (h : SubstitutedRuns sepDS fmt G ini log g out) :
    (∀ i a l m s, HasAspect (fmt i) a → G.final.images.at i l m = some s → g i a l m = s.layout) →
    ∀ o ∈ out, StreamValid o.1 o.2 := by
  induction h with
  | done => intro _ o ho; simp at ho
  | step x passes body hg hM hor hb e rest ih =>
    intro htrue o ho
    have hH := (honest_restored (V := fun _ => False) (fun _ h => h.elim) (fun _ h => h.elim) htrue hg).true'
    obtain ⟨h1, h2, h3, h4⟩ := parts_substituted_valid_partial hM [] hH hor _ _ hb _ _ e
    rcases List.mem_cons.1 ho with rfl | ho
    · exact h1
    · refine ih ?_ o ho
      intro i a l m s ha hs
      refine h3 i a l m s.layout ha ?_
      rw [← h2]
      exact leftIn_some.2 ⟨s, hs, rfl⟩

/-! ### Non-vacuity, and what goes wrong -/

/-- The pass writing the second level (Props/Mixed.lean) registers an action for a view: that the level is cleared and left
in GENERAL. -/
def sWrite (v : View) : RunPass := { mWrite 1 with implicitActions := [(v, .clear (mLevel 1) 0 Layout.general)] }
def sPasses (v : View) : List RunPass := [mWrite 0, sWrite v, mRead]
/-- Two executions, the pass writing the second level being disabled in the second. -/
def sStreams (v : View) : Option (List Cmd × List Cmd) :=
  (record ⟨false, mAll.enabled⟩ xG [] mAll.index (sPasses v) (fun _ _ => false) []).bind fun a =>
    (record ⟨false, mSkip.enabled⟩ a.1 [] mSkip.index (sPasses v) a.2.initialised a.2.log).map fun b =>
      (a.2.recd.cmds, b.2.recd.cmds)

/-- An action registered for the part the disabled pass would write isn't run when a later pass uses the whole: the streams
are those without action, and the second one is invalid. -/
theorem part_substitute_not_run (g : Layouts) :
    sStreams (mLevel 1) = some (mFirst, mSecond) ∧ ¬ StreamValid (execAll g mFirst) mSecond :=
  ⟨by decide +kernel, (half_used_invalid g).2.2⟩

theorem s_uses (x : Exec) (hx : x = mAll ∨ x = mSkip) :
    frameUses false x.enabled x.index (fun _ => []) [] (sPasses mWhole)
      = if x.enabled 2 then [⟨mLevel 0, Layout.general⟩, ⟨mLevel 1, Layout.general⟩, ⟨mWhole, Layout.shaderReadOnly⟩]
        else [⟨mLevel 0, Layout.general⟩, ⟨mLevel 1, Layout.transferDst⟩, ⟨mLevel 1, Layout.general⟩,
          ⟨mWhole, Layout.shaderReadOnly⟩] := by
  rcases hx with rfl | rfl <;> decide +kernel

theorem example_substituted (x : Exec) (hx : x = mAll ∨ x = mSkip) :
    SubstitutedRun false (fun _ => 37) x.enabled x.index (sPasses mWhole) (fun _ => []) := by
  refine ⟨?_, ?_, ?_⟩
  · intro u hu
    rw [s_uses x hx] at hu
    have h0 : PlainView false (fun _ => 37) (mLevel 0) := ⟨rfl, by decide, by decide, by decide⟩
    have h1 : PlainView false (fun _ => 37) (mLevel 1) := ⟨rfl, by decide, by decide, by decide⟩
    have h2 : PlainView false (fun _ => 37) mWhole := ⟨rfl, by decide, by decide, by decide⟩
    split at hu
    · simp only [List.mem_cons, List.not_mem_nil, or_false] at hu
      rcases hu with rfl | rfl | rfl
      · exact ⟨h0, by decide⟩
      · exact ⟨h1, by decide⟩
      · exact ⟨h2, by decide⟩
    · simp only [List.mem_cons, List.not_mem_nil, or_false] at hu
      rcases hu with rfl | rfl | rfl | rfl
      · exact ⟨h0, by decide⟩
      · exact ⟨h1, by decide⟩
      · exact ⟨h1, by decide⟩
      · exact ⟨h2, by decide⟩
  · rcases hx with rfl | rfl
    all_goals
      simp [sPasses, FrameLasting, Lasting, imageUses, sWrite, mWrite, mRead, mAll, mSkip]
  · intro p hp va hva
    simp only [sPasses, List.mem_cons, List.not_mem_nil, or_false] at hp
    rcases hp with rfl | rfl | rfl
    · simp [mWrite] at hva
    · simp [sWrite] at hva
      subst hva
      trivial
    · simp [mRead] at hva

theorem s_bodies (G : GraphSt) (q : RunPass) (hq : q ∈ sPasses mWhole) (index : Nat) (r : Rec) :
    BodyUses false (fun _ => 37) G q index r [] := by
  refine .does fun r => ?_
  simp only [sPasses, List.mem_cons, List.not_mem_nil, or_false] at hq
  rcases hq with rfl | rfl | rfl
  · exact ⟨[.call (.work 0)], rfl, ⟨trivial, trivial⟩, rfl⟩
  · exact ⟨[.call (.work 1)], rfl, ⟨trivial, trivial⟩, rfl⟩
  · exact ⟨[.cmd (.work 3) []], rfl, ⟨⟨fun _ => rfl, fun _ _ => trivial, by simp⟩, trivial⟩, rfl⟩

/-- An action registered for the whole the later pass uses is run: the two executions meet the hypotheses of the theorems. -/
theorem example_substituted_runs (g : Layouts) : ∃ c1 c2, sStreams mWhole = some (c1, c2) ∧ StreamValid g c1
    ∧ StreamValid (execAll g c1) c2
    ∧ Cmd.clearImage true 1 Layout.transferDst ⟨Aspect.color, 1, 1, 0, 1⟩ 0 ∈ c2 := by
  have hd : (sStreams mWhole).map (fun c => decide (Cmd.clearImage true 1 Layout.transferDst ⟨Aspect.color, 1, 1, 0, 1⟩ 0 ∈ c.2))
      = some true := by decide +kernel
  obtain ⟨⟨c1, c2⟩, e, hc⟩ := Option.map_eq_some_iff.1 hd
  have e' := e
  unfold sStreams at e'
  obtain ⟨⟨G1, f1⟩, e1, e'⟩ := Option.bind_eq_some_iff.1 e'
  obtain ⟨⟨G2, f2⟩, e2, e'⟩ := Option.map_eq_some_iff.1 e'
  simp only [Prod.mk.injEq] at e'
  obtain ⟨rfl, rfl⟩ := e'
  have hnil : (leftIn (startCtx []).images) = Left.nothing := rfl
  have o1 : Orderly (leftIn xG.inputs) (leftIn xG.final.images) Left.nothing
      (frameUses false mAll.enabled mAll.index (fun _ => []) [] (sPasses mWhole)) := orderly_of (by decide +kernel)
  obtain ⟨v1, l1, m1, i1⟩ := parts_substituted_valid_partial (g0 := g) (example_substituted mAll (Or.inl rfl)) [] (by
    intro i a l m s _ hk
    have : known (startCtx []) xG i l m = none := rfl
    rw [this] at hk; simp at hk) o1 _ [] (fun q r he => s_bodies xG q (enters_mem he) _ r) G1 f1 e1
  have o2 : Orderly (leftIn G1.inputs) (leftIn G1.final.images) Left.nothing
      (frameUses false mSkip.enabled mSkip.index (fun _ => []) [] (sPasses mWhole)) := by
    rw [l1, i1, hnil]
    exact orderly_of (by decide +kernel)
  have hr : SubstitutedRuns false (fun _ => 37) xG (fun _ _ => false) [] g
      [(g, f1.recd.cmds), (execAll g f1.recd.cmds, f2.recd.cmds)] :=
    .step mAll (sPasses mWhole) (fun _ => []) (fun _ _ _ _ => rfl) (example_substituted mAll (Or.inl rfl)) o1
      (fun q r he => s_bodies xG q (enters_mem he) _ r) e1
      (.step mSkip (sPasses mWhole) (fun _ => []) (by intro i a l m; rw [i1]; rfl) (example_substituted mSkip (Or.inr rfl)) o2
        (fun q r he => s_bodies G1 q (enters_mem he) _ r) e2 (.done _ _ _ _))
  have hv := parts_substituted_executions_partial hr (by
    intro i a l m s _ hk
    have : xG.final.images.at i l m = none := rfl
    rw [this] at hk; simp at hk)
  exact ⟨_, _, e, hv (g, f1.recd.cmds) (by simp), hv (execAll g f1.recd.cmds, f2.recd.cmds) (by simp), of_decide_eq_true hc⟩

end Verif.Run
