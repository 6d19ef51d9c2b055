import Verif.Spec.Usage
import Verif.Props.Bracket
import Verif.Props.Frame
import Verif.Props.Ready
import Verif.Lemmas.Formats
/-
C88: the recorded commands are legal on the images they name.
-/
namespace Verif.Use
open Verif.Rec Verif.Run Verif.Gpu Verif.Att

variable {sepDS : Bool} {S : Images}

/-- All that is recorded is legal, all that is pending too. -/
def St (sepDS : Bool) (S : Images) (r : Rec) : Prop :=
  (∀ c ∈ r.cmds, Legal sepDS S c) ∧ ∀ t ∈ r.ctx.implicit, ActionOk S t.action

theorem St.emit {r : Rec} (h : St sepDS S r) {c : Cmd} (hc : Legal sepDS S c) : St sepDS S (r.emit c) := by
  refine ⟨fun d hd => ?_, h.2⟩
  rcases List.mem_append.mp (show d ∈ r.cmds ++ [c] from hd) with hd | hd
  · exact h.1 d hd
  · cases List.mem_singleton.mp hd; exact hc

theorem St.ctx {r : Rec} (h : St sepDS S r) (c : Ctx) (e : c.implicit = r.ctx.implicit) : St sepDS S { r with ctx := c } :=
  ⟨h.1, by show ∀ t ∈ c.implicit, _; rw [e]; exact h.2⟩

theorem aspect_ds {a : Nat} (h0 : a ≠ 0) (h : ∀ b, a.testBit b = true → (6 : Nat).testBit b = true) : a = 2 ∨ a = 4 ∨ a = 6 := by
  have e : a = a &&& 6 := by
    apply Nat.eq_of_testBit_eq
    intro b
    rw [Nat.testBit_and]
    cases ha : a.testBit b with
    | false => rfl
    | true => rw [h b ha]; rfl
  have hl : a ≤ 6 := by rw [e]; exact Nat.and_le_right
  have h1 := h 0
  match a, h0, hl, h1 with
  | 1, _, _, h1 => exact absurd (h1 rfl) (by decide)
  | 2, _, _, _ => exact .inl rfl
  | 3, _, _, h1 => exact absurd (h1 rfl) (by decide)
  | 4, _, _, _ => exact .inr (.inl rfl)
  | 5, _, _, h1 => exact absurd (h1 rfl) (by decide)
  | 6, _, _, _ => exact .inr (.inr rfl)

theorem names_adapt {i : Image} {r : Range} (h : Names i r) : Names i (adaptRange sepDS i.format r)
    ∧ (sepDS = false → aspects i.format = 6 → (adaptRange sepDS i.format r).aspect = 6) := by
  obtain ⟨h1, h2, h3, h4, h5, h6⟩ := h
  unfold adaptRange
  split
  · rename_i hc
    simp only [Bool.and_eq_true] at hc
    have h := (isDepthStencil_iff i.format).mp hc.2.1
    refine ⟨⟨h1, h2, h3, h4, (by show Aspect.depth ||| Aspect.stencil ≠ 0; decide), fun b hb => ?_⟩, fun _ _ => rfl⟩
    unfold HasAspect
    rw [h]; exact hb
  · rename_i hc
    refine ⟨⟨h1, h2, h3, h4, h5, h6⟩, fun hs h => ?_⟩
    unfold HasAspect at h6
    rw [h] at h6
    have hd := (isDepthStencil_iff i.format).mpr h
    rcases aspect_ds h5 h6 with e | e | e
    · exact absurd (by rw [hs, hd, e]; rfl) hc
    · exact absurd (by rw [hs, hd, e]; rfl) hc
    · exact e

theorem st_ite {c : Prop} [Decidable c] {a b : Rec} (ha : St sepDS S a) (hb : St sepDS S b) :
    St sepDS S (if c then a else b) := by
  split
  · exact ha
  · exact hb

theorem st_imageBarrier {en : Nat → Bool} {r : Rec} (h : St sepDS S r) {img : Image} (hi : img = S img.id) {sub : Range} (hn : Names img sub)
    (vt i w f) : St sepDS S (Rec.imageBarrier ⟨sepDS, en⟩ r img vt sub i w f) := by
  unfold Rec.imageBarrier
  refine st_ite (St.ctx (h.emit ?_) _ rfl) h
  have := names_adapt (sepDS := sepDS) hn
  show Names (S img.id) _ ∧ (_ → aspects (S img.id).format = 6 → _)
  rw [← hi]
  exact this

theorem st_viewBarrier {en : Nat → Bool} {r : Rec} (h : St sepDS S r) {v : View} (hv : ViewOk S v) (i w f) :
    St sepDS S (Rec.viewBarrier ⟨sepDS, en⟩ r v i w f) := st_imageBarrier h hv.1 hv.2.1 ..

theorem st_bufferBarrier {r : Rec} (h : St sepDS S r) (b o s i w f) : St sepDS S (Rec.bufferBarrier r b o s i w f) := by
  unfold Rec.bufferBarrier
  exact st_ite (St.ctx (h.emit (c := .bufferBarrier _ _ _ _ _) trivial) _ rfl) h

theorem st_finalBarrier {en : Nat → Bool} {r : Rec} (h : St sepDS S r) {v : View} (hv : ViewOk S v) (f) :
    St sepDS S (Rec.finalBarrier ⟨sepDS, en⟩ r v f) := by
  unfold Rec.finalBarrier
  split
  · exact st_viewBarrier h hv ..
  · exact h

theorem ViewOk.first {v : View} (hv : ViewOk S v) : Names (S v.image.id) (firstLayer v.range) := by
  rw [← hv.1]
  obtain ⟨h1, h2, h3, h4, h5, h6⟩ := hv.2.1
  exact ⟨Nat.le_refl _, by show v.range.baseMip + 1 ≤ _; omega, Nat.le_refl _, by show v.range.baseLayer + 1 ≤ _; omega, h5, h6⟩

theorem ViewOk.layers {v : View} (hv : ViewOk S v) : Names (S v.image.id) (Xfer.layersOf v.range) := by
  rw [← hv.1]
  obtain ⟨h1, h2, h3, h4, h5, h6⟩ := hv.2.1
  exact ⟨Nat.le_refl _, by show v.range.baseMip + 1 ≤ _; omega, h3, h4, h5, h6⟩

theorem st_doCopy {en : Nat → Bool} {r : Rec} (h : St sepDS S r) {s d : View} {w hh f : Nat} (ha : ActionOk S (.copy s d w hh f)) :
    St sepDS S (Rec.doCopy ⟨sepDS, en⟩ r s d w hh f) := by
  obtain ⟨hs, hd, e, f1, f2⟩ := ha
  unfold Rec.doCopy
  refine st_finalBarrier (St.emit (st_viewBarrier (st_viewBarrier h hs ..) hd ..) ?_) hd _
  exact ⟨hs.first, hd.first, rfl, rfl, rfl, e, by rw [← hs.1]; exact f1, by rw [← hd.1]; exact f2⟩

theorem st_doBlit {en : Nat → Bool} {r : Rec} (h : St sepDS S r) {s d : View} {sx sy sw sh dx dy dw dh fi f}
    (ha : ActionOk S (.blit s d sx sy sw sh dx dy dw dh fi f)) :
    St sepDS S (Rec.doBlit ⟨sepDS, en⟩ r s d sx sy sw sh dx dy dw dh fi f) := by
  obtain ⟨hs, hd, e, f1, f2, f3⟩ := ha
  unfold Rec.doBlit
  refine st_finalBarrier (St.emit (st_viewBarrier (st_viewBarrier h hs ..) hd ..) ?_) hd _
  exact ⟨hs.first, hd.first, rfl, rfl, rfl, e, by rw [← hs.1]; exact f1, by rw [← hd.1]; exact f2, by rw [← hs.1, ← hd.1]; exact f3⟩

theorem ViewOk.clear {v : View} (hv : ViewOk S v) (layout value : Nat) :
    Legal sepDS S (.clearImage (isColourFormat v.format) v.image.id layout v.range value) := by
  refine ⟨by rw [← hv.1]; exact hv.2.1, ?_⟩
  rw [← hv.1, ← hv.2.2]
  exact (formats_aspects v.format).2.1

theorem st_doClear {en : Nat → Bool} {r : Rec} (h : St sepDS S r) {d : View} (hd : ViewOk S d) (v f) :
    St sepDS S (Rec.doClear ⟨sepDS, en⟩ r d v f) := by
  unfold Rec.doClear
  exact st_finalBarrier (St.emit (st_viewBarrier h hd ..) (hd.clear ..)) hd _

theorem st_runImplicitN (en : Nat → Bool) (n : Nat) : ∀ (r : Rec) (v : View), St sepDS S r →
    St sepDS S (Rec.runImplicitN ⟨sepDS, en⟩ n r v) := by
  induction n with
  | zero => exact fun r v h => h
  | succ n ih =>
    intro r v h
    unfold Rec.runImplicitN
    split
    · exact h
    · rename_i t ht
      generalize hr1 : ({ r with ctx := { r.ctx with implicit := r.ctx.implicit.eraseP (Implicit.isFor v) } } : Rec) = r1
      have h0 : St sepDS S r1 := by
        rw [← hr1]
        exact ⟨h.1, fun t ht => h.2 t (List.mem_of_mem_eraseP ht)⟩
      have ha := h.2 t (List.mem_of_find?_eq_some ht)
      show St sepDS S (if en t.pass then r1 else _)
      refine st_ite h0 ?_
      split
      · exact h0
      · exact h0.emit trivial
      · rename_i e; rw [e] at ha
        exact st_doCopy (ih r1 _ h0) ha
      · rename_i e; rw [e] at ha
        exact st_doBlit (ih r1 _ h0) ha
      · rename_i e; rw [e] at ha
        exact st_doClear h0 ha _ _

theorem st_foldl {α : Type} (f : Rec → α → Rec) (l : List α) (h : ∀ r, ∀ a ∈ l, St sepDS S r → St sepDS S (f r a)) :
    ∀ r, St sepDS S r → St sepDS S (l.foldl f r) := by
  induction l with
  | nil => exact fun r h => h
  | cons a l ih =>
    exact fun r hr => ih (fun r b hb => h r b (List.mem_cons_of_mem _ hb)) _ (h r a List.mem_cons_self hr)

theorem st_foldOpt {α : Type} (f : Rec → α → Option Rec) (l : List α)
    (h : ∀ r, ∀ a ∈ l, ∀ r', f r a = some r' → St sepDS S r → St sepDS S r') :
    ∀ r r', foldOpt f r l = some r' → St sepDS S r → St sepDS S r' := by
  induction l with
  | nil => intro r r' e hr; cases e; exact hr
  | cons a l ih =>
    intro r r' e hr
    unfold foldOpt at e
    split at e
    · cases e
    · rename_i r1 h1
      exact ih (fun r b hb => h r b (List.mem_cons_of_mem _ hb)) _ _ e (h r a List.mem_cons_self _ h1 hr)

theorem current_implicit (G : GraphSt) (c : Ctx) (v : View) : (getCurrentLayoutState G c v).2.implicit = c.implicit := by
  unfold getCurrentLayoutState
  simp only
  repeat' split
  all_goals rfl

theorem st_recordImage {en : Nat → Bool} {G : GraphSt} {index : Nat} {r : Rec} {a : Attachment} {r' : Rec}
    (hv : ∀ v, a.img.view index = some v → ViewOk S v) (e : recordImage ⟨sepDS, en⟩ G index r a = some r') (h : St sepDS S r) :
    St sepDS S r' := by
  unfold recordImage at e
  split at e
  · cases e
  · rename_i v ev
    have hv := hv v ev
    have h1 : St sepDS S (r.runImplicit ⟨sepDS, en⟩ v) := st_runImplicitN en _ r v h
    generalize hr1 : r.runImplicit ⟨sepDS, en⟩ v = r1 at e h1
    simp only at e
    have h2 : St sepDS S { r1 with ctx := (if (!a.isInput) = true then (makeLayoutState Layout.undefined, r1.ctx)
        else getCurrentLayoutState G r1.ctx v).2 } := by
      refine h1.ctx _ ?_
      split
      · rfl
      · exact current_implicit ..
    split at e
    · split at e
      · injection e with e
        subst e
        exact st_viewBarrier (St.emit (st_viewBarrier h2 hv ..) (hv.clear ..)) hv ..
      · injection e with e
        subst e
        exact st_viewBarrier h2 hv ..
    · injection e with e
      subst e
      exact h1

theorem st_recordBuffer {compute : Bool} {index : Nat} {r : Rec} {a : Attachment} {r' : Rec} (hs : 0 < a.buf.size)
    (e : recordBuffer compute index r a = some r') (h : St sepDS S r) : St sepDS S r' := by
  unfold recordBuffer at e
  split at e
  · split at e
    · cases e
    · simp only at e
      split at e
      · injection e with e
        subst e
        refine st_bufferBarrier (St.emit (st_bufferBarrier h ..) ?_) ..
        refine ⟨?_, ?_⟩
        · split
          · rfl
          · exact Nat.mod_eq_zero_of_dvd (aligned_size_least _ 4 (by decide)).1
        · split
          · left; rfl
          · right
            have := aligned_size_least a.buf.size 4 (by decide)
            exact ⟨Nat.mod_eq_zero_of_dvd this.1, by omega⟩
      · injection e with e
        subst e
        exact st_bufferBarrier h ..
  · injection e with e
    subst e
    exact h

theorem st_prepare {en : Nat → Bool} {G : GraphSt} {p : RunPass} (hp : PassOk sepDS S G p) {index : Nat} {r r' : Rec}
    (e : prepare ⟨sepDS, en⟩ G p index r = some r') (h : St sepDS S r) : St sepDS S r' := by
  unfold prepare at e
  split at e
  · cases e
  · rename_i r1 h1
    have h2 := st_foldOpt _ _ (fun r a ha r' e hr => st_recordImage (fun v ev => hp.views a ha index v ev) e hr) _ _ h1 h
    exact st_foldOpt _ _ (fun r a ha r' e hr => st_recordBuffer (hp.buffers a ha) e hr) _ _ e h2

theorem st_perform {r : Rec} (h : St sepDS S r) (c : Call) (hc : CallOk S c) : St sepDS S (perform sepDS r c) := by
  cases c with
  | barrier v i w f => exact st_viewBarrier h hc ..
  | buffer q => exact st_bufferBarrier h ..
  | register t =>
    refine ⟨h.1, fun u hu => ?_⟩
    rcases List.mem_append.mp (show u ∈ r.ctx.implicit ++ [t] from hu) with hu | hu
    · exact h.2 u hu
    · cases List.mem_singleton.mp hu; exact hc
  | use v en => exact st_runImplicitN _ _ _ _ h
  | work k => exact h.emit trivial

theorem st_copyPairs {en : Nat → Bool} {size : Xfer.Extent} {final index : Nat} : ∀ (n : Nat) (l : List Attachment), l.length ≤ n →
    ∀ (_ : ∀ a ∈ l, ∀ v, a.img.view index = some v → ViewOk S v) (_ : PairsOk size index l) (r r' : Rec),
    Xfer.copyPairs ⟨sepDS, en⟩ size final index l r = some r' → St sepDS S r → St sepDS S r' := by
  intro n
  induction n with
  | zero =>
    intro l hl _ _ r r' e h
    match l, hl with
    | [], _ => cases e; exact h
  | succ n ih =>
    intro l hl hv hp r r' e h
    match l, hl with
    | [], _ => cases e; exact h
    | [_], _ => cases e
    | s :: t :: rest, hl =>
      unfold Xfer.copyPairs at e
      split at e
      · cases e
      · rename_i r1 h1
        refine ih rest (by simp at hl; omega) (fun a ha => hv a (by simp [ha])) hp.2 _ _ e ?_
        unfold Xfer.copyPair at h1
        split at h1
        · rename_i vs vt es et
          injection h1 with h1
          subst h1
          have ks := hv s (by simp) vs es
          have kt := hv t (by simp) vt et
          obtain ⟨a1, a2, a3, a4⟩ := hp.1 vs vt es et
          refine st_finalBarrier (h.emit ?_) kt _
          exact ⟨ks.layers, kt.layers, rfl, rfl, a2, a1, by rw [← ks.1]; exact a3, by rw [← kt.1]; exact a4⟩
        · cases h1

theorem st_getD {r : Rec} {o : Option Rec} (hr : St sepDS S r) (h : ∀ r', o = some r' → St sepDS S r') :
    St sepDS S (o.getD r) := by
  cases o with
  | none => exact hr
  | some r' => exact h _ rfl

theorem within_corners {i : Image} (l : Nat) : Spans i l (Mip.corners i l) := by
  unfold Spans Within Mip.corners
  simp only [Mip.dimension_eq]
  omega

theorem names_sub {i : Image} {layer l : Nat} (hl : l < i.mipLevels) (hy : layer < i.arrayLayers) :
    Names i (Mip.sub (getAspectMask i.format) layer l) := by
  refine ⟨Nat.le_refl _, by show l + 1 ≤ _; omega, Nat.le_refl _, by show layer + 1 ≤ _; omega, ?_, ?_⟩
  · show getAspectMask i.format ≠ 0
    unfold getAspectMask
    repeat' split
    all_goals decide
  · intro b hb
    have : (getAspectMask i.format).testBit b = true := hb
    unfold HasAspect
    rw [← getAspectMask_eq]; exact this

theorem st_levelStep {en : Nat → Bool} {img : Image} (hi : img = S img.id) (hc : Coloured img) (ty next) {layer : Nat}
    (hy : layer < img.arrayLayers) {r : Rec} (h : St sepDS S r) {l : Nat} (hl : 1 ≤ l) (hl' : l < img.mipLevels) :
    St sepDS S (Mip.levelStep ⟨sepDS, en⟩ img ty next layer r l) := by
  have n0 : Names img (Mip.sub (getAspectMask img.format) layer (l - 1)) := names_sub (by omega) hy
  have n1 : Names img (Mip.sub (getAspectMask img.format) layer l) := names_sub hl' hy
  unfold Mip.levelStep
  refine st_ite ?_ ?_ <;> refine st_imageBarrier (st_imageBarrier (St.emit (st_imageBarrier h hi n1 ..) ?_) hi n0 ..) hi n1 ..
  all_goals
    refine ⟨by rw [← hi]; exact n0, by rw [← hi]; exact n1, rfl, rfl, rfl, rfl, by rw [← hi]; exact within_corners _,
      by rw [← hi]; exact within_corners _, Iff.rfl, fun hn => absurd ?_ hn⟩
    rw [← hi]; exact hc

theorem st_mipmaps {en : Nat → Bool} {G : GraphSt} {p : RunPass} {out : LayoutState} {v : View} {ty : ViewType} {r : Rec}
    (h : St sepDS S r) (hv : ViewOk S v) (hc : Coloured v.image) :
    St sepDS S (Mip.generateMipmaps ⟨sepDS, en⟩ G p out v ty r) := by
  unfold Mip.generateMipmaps Mip.generate
  obtain ⟨k1, k2, k3, k4, k5, k6⟩ := hv.2.1
  refine st_foldl _ _ (fun r layer hy hr => ?_) r h
  have hy' := List.mem_range'_1.mp hy
  have hy2 : layer < v.image.arrayLayers := by omega
  unfold Mip.layerStep
  refine st_foldl _ _ (fun r l hl hr => ?_) _ ?_
  · have hl' := List.mem_range'_1.mp hl
    exact st_levelStep hv.1 hc ty _ hy2 hr hl'.1 (by omega)
  · refine st_imageBarrier (St.ctx hr _ (current_implicit ..)) hv.1 (names_sub (by omega) hy2) ..

theorem create_implicit {G : GraphSt} {p : RunPass} {index : Nat} {c : Ctx} {o : RPass.PassObj} {c' : Ctx}
    (e : RPass.create sepDS G p index c = some (o, c')) : c'.implicit = c.implicit := by
  have key : ∀ (l : List Attachment) (oc oc' : RPass.PassObj × Ctx), RPass.foldOpt (RPass.createOne sepDS G p index) oc l = some oc' →
      oc'.2.implicit = oc.2.implicit := by
    intro l
    induction l with
    | nil => intro oc oc' e; cases e; rfl
    | cons a l ih =>
      intro oc oc' e
      unfold RPass.foldOpt at e
      split at e
      · cases e
      · rename_i b hb
        rw [ih _ _ e]
        unfold RPass.createOne at hb
        split at hb
        · split at hb
          · cases hb
          · simp only at hb
            split at hb
            · cases hb; exact current_implicit ..
            · cases hb; exact current_implicit ..
        · cases hb; rfl
  unfold RPass.create at e
  cases hx : RPass.foldOpt (RPass.createOne sepDS G p index) ({}, c) p.images with
  | none => rw [hx] at e; cases e
  | some oc =>
    rw [hx] at e
    simp only [Option.map_some, Option.some.injEq, Prod.mk.injEq] at e
    rw [← e.2]; exact key _ _ _ hx

theorem obj_of_views {o : RPass.PassObj} (h : ∀ v ∈ o.views, ViewOk S v ∧ v.range.levels = 1) : ObjectOk S o := by
  intro a ha
  unfold RPass.PassObj.atts at ha
  obtain ⟨k, hk, rfl⟩ := List.mem_mapIdx.mp ha
  have hm : (o.descs.zip o.views)[k] ∈ o.descs.zip o.views := List.getElem_mem _
  have hv := h _ (List.of_mem_zip (a := (o.descs.zip o.views)[k].1) (b := (o.descs.zip o.views)[k].2) hm).2
  generalize (o.descs.zip o.views)[k] = dv at hv
  refine ⟨?_, hv.2⟩
  show Names (S dv.2.image.id) dv.2.range
  rw [← hv.1.1]; exact hv.1.2.1

theorem mapM_mem {α β : Type} (f : α → Option β) : ∀ (l : List α) (r : List β), l.mapM f = some r → ∀ b ∈ r, ∃ a ∈ l, f a = some b := by
  intro l
  induction l with
  | nil => intro r e b hb; cases e; cases hb
  | cons a l ih =>
    intro r e b hb
    rw [List.mapM_cons] at e
    cases ha : f a with
    | none => rw [ha] at e; cases e
    | some x =>
      cases hl : l.mapM f with
      | none => rw [ha, hl] at e; cases e
      | some y =>
        rw [ha, hl] at e
        cases e
        rcases List.mem_cons.mp hb with rfl | hb
        · exact ⟨a, by simp, ha⟩
        · obtain ⟨z, hz, e⟩ := ih _ hl b hb
          exact ⟨z, by simp [hz], e⟩

theorem initialise_ok {G : GraphSt} {p : RunPass} {w h index : Nat} {cached : Option RPass.PassObj} {c : Ctx}
    {x : RPass.PassObj × Bool × Ctx}
    (hc : ∀ o, cached = some o → ObjectOk S o) (hv : ∀ a ∈ p.images, ∀ v, a.img.view index = some v → ViewOk S v)
    (ht : ∀ a ∈ p.images, RPass.isTarget a = true → ∀ v, a.img.view index = some v → v.range.levels = 1)
    (e : RPass.initialise sepDS G w h p index cached c = some x) : ObjectOk S x.1 ∧ x.2.2.implicit = c.implicit := by
  have fresh : ∀ x, ((RPass.create sepDS G p index c).bind fun oc => (RPass.area w h p oc.1).bind fun o =>
      (RPass.framebuffer p index o).map fun o => (o, true, oc.2)) = some x → ObjectOk S x.1 ∧ x.2.2.implicit = c.implicit := by
    intro x e
    obtain ⟨oc, h1, e⟩ := Option.bind_eq_some_iff.mp e
    obtain ⟨o, h2, e⟩ := Option.bind_eq_some_iff.mp e
    obtain ⟨o', h3, e⟩ := Option.map_eq_some_iff.mp e
    subst e
    refine ⟨obj_of_views ?_, create_implicit h1⟩
    unfold RPass.framebuffer at h3
    obtain ⟨views, h4, h5⟩ := Option.map_eq_some_iff.mp h3
    subst h5
    intro v hm
    obtain ⟨a, ha, ea⟩ := mapM_mem _ _ _ h4 v hm
    have ha := List.mem_filter.mp ha
    exact ⟨hv a ha.1 v ea, ht a ha.1 ha.2 v ea⟩
  unfold RPass.initialise at e
  simp only at e
  split at e
  · rename_i o
    split at e
    · cases e; exact ⟨hc o rfl, rfl⟩
    · exact fresh _ e
  · exact fresh _ e

theorem foldl_setLayout_implicit (es : List RPass.Entry) (g : RPass.Entry → LayoutState) : ∀ c : Ctx,
    (es.foldl (fun (c : Ctx) (e : RPass.Entry) => c.setLayout e.view.image e.view.viewType e.view.range (g e)) c).implicit
      = c.implicit := by
  induction es with
  | nil => exact fun c => rfl
  | cons e es ih => exact fun c => (ih _).trans rfl

/-- C88: what a drawing pass keeps for its next recordings is legal if what it kept before is: the hypothesis on kept
render pass objects holds again. -/
theorem kept_object_legal {G : GraphSt} {p : RunPass} {w h index : Nat} {cached : Option RPass.PassObj} {draw : List Nat} {r r' : Rec}
    {o : RPass.PassObj}
    (hc : ∀ o, cached = some o → ObjectOk S o) (hv : ∀ a ∈ p.images, ∀ v, a.img.view index = some v → ViewOk S v)
    (ht : ∀ a ∈ p.images, RPass.isTarget a = true → ∀ v, a.img.view index = some v → v.range.levels = 1)
    (e : RPass.recordPass sepDS G w h p cached draw index r = some (o, r')) : ObjectOk S o := by
  unfold RPass.recordPass at e
  obtain ⟨x, h1, h2⟩ := Option.map_eq_some_iff.mp e
  have := initialise_ok hc hv ht h1
  simp only [Prod.mk.injEq] at h2
  rw [← h2.1]; exact this.1

theorem st_recordPass {G : GraphSt} {p : RunPass} {w h index : Nat} {cached : Option RPass.PassObj} {draw : List Nat} {r : Rec}
    (hc : ∀ o, cached = some o → ObjectOk S o) (hv : ∀ a ∈ p.images, ∀ v, a.img.view index = some v → ViewOk S v)
    (ht : ∀ a ∈ p.images, RPass.isTarget a = true → ∀ v, a.img.view index = some v → v.range.levels = 1)
    (hr : St sepDS S r) :
    St sepDS S (((RPass.recordPass sepDS G w h p cached draw index r).map (·.2)).getD r) := by
  refine st_getD hr fun r' e => ?_
  obtain ⟨⟨o, r2⟩, h1, h2⟩ := Option.map_eq_some_iff.mp e
  subst h2
  have ho := kept_object_legal hc hv ht h1
  unfold RPass.recordPass at h1
  obtain ⟨x, h1, h2⟩ := Option.map_eq_some_iff.mp h1
  have hi := (initialise_ok hc hv ht h1).2
  simp only [Prod.mk.injEq] at h2
  obtain ⟨e1, e2⟩ := h2
  subst e1 e2
  have a1 : St sepDS S (RPass.beginPass { r with ctx := x.2.2 } x.1) :=
    St.emit (St.ctx hr _ ((foldl_setLayout_implicit _ _ _).trans hi)) ho
  generalize RPass.beginPass { r with ctx := x.2.2 } x.1 = r1 at a1
  have a2 : St sepDS S { r1 with cmds := r1.cmds ++ draw.map Cmd.user } := by
    refine ⟨fun c hc => ?_, a1.2⟩
    rcases List.mem_append.mp hc with hc | hc
    · exact a1.1 c hc
    · obtain ⟨k, _, rfl⟩ := List.mem_map.mp hc; trivial
  generalize ({ r1 with cmds := r1.cmds ++ draw.map Cmd.user } : Rec) = r2 at a2
  exact St.ctx (St.emit a2 (c := .endPass x.1.atts) ho) _ (foldl_setLayout_implicit _ _ _)

theorem st_body {G : GraphSt} {p : RunPass} (hp : PassOk sepDS S G p) (index : Nat) {r : Rec} (hr : St sepDS S r) :
    St sepDS S (p.body index r) := by
  have hv : ∀ a ∈ p.images, ∀ v, a.img.view index = some v → ViewOk S v := fun a ha v => hp.views a ha index v
  cases hp.body with
  | draws cached w h draw hc ht hb =>
    rw [hb]
    exact st_recordPass (fun o => hc index o) hv (fun a ha t v => ht a ha t index v) hr
  | copies en size final hp h =>
    rw [h]; exact st_getD hr fun r' e => st_copyPairs _ _ (Nat.le_refl _) hv (hp index) _ _ e hr
  | blits so ss dO ds filter hp h =>
    rw [h]; refine st_getD hr fun r' e => ?_
    unfold Xfer.imageBlit at e
    split at e
    · rename_i a b ea eb
      split at e
      · rename_i s t es et
        cases e
        have ks := hv a (List.mem_of_mem_head? ea) s es
        have kt := hv b (List.mem_of_mem_getLast? eb) t et
        obtain ⟨a1, a2, a3, a4, a5⟩ := hp index a ea b eb s t es et
        exact hr.emit ⟨ks.layers, kt.layers, rfl, rfl, a2, a1, by rw [← ks.1]; exact a3, by rw [← kt.1]; exact a4,
          by rw [← ks.1, ← kt.1]; exact a5⟩
      · cases e
    · cases e
  | copiesBuffer a b h =>
    rw [h]; refine st_getD hr fun r' e => ?_
    unfold Xfer.bufferCopy at e
    split at e
    · split at e
      · cases e
        exact st_bufferBarrier (st_bufferBarrier (St.emit (st_bufferBarrier (st_bufferBarrier hr ..) ..)
          (c := .copyBuffer _ _ _ _ _) trivial) ..) ..
      · cases e
    · cases e
  | uploads o s hp h =>
    rw [h]; refine st_getD hr fun r' e => ?_
    unfold Xfer.bufferToImage at e
    split at e
    · rename_i a b ea eb
      split at e
      · rename_i s t es et
        cases e
        have ks := hv a (List.mem_of_mem_getLast? ea) s es
        obtain ⟨a1, a2⟩ := hp a ea index s es
        exact hr.emit ⟨ks.layers, rfl, a1, by rw [← ks.1]; exact a2⟩
      · cases e
    · cases e
  | downloads o s hp h =>
    rw [h]; refine st_getD hr fun r' e => ?_
    unfold Xfer.imageToBuffer at e
    split at e
    · rename_i a b ea eb
      split at e
      · rename_i s t es et
        cases e
        have ks := hv a (List.mem_of_mem_getLast? ea) s es
        obtain ⟨a1, a2⟩ := hp a ea index s es
        exact hr.emit ⟨ks.layers, rfl, a1, by rw [← ks.1]; exact a2⟩
      · cases e
    · cases e
  | mipmaps ty out hp h =>
    obtain ⟨en, e⟩ := h index r
    rw [e]
    split
    · rename_i a ea
      split
      · rename_i v ev
        exact st_mipmaps hr (hv a (List.mem_of_mem_head? ea) v ev) (hp a ea index v ev)
      · exact hr
    · exact hr
  | uses h =>
    obtain ⟨calls, hc, e⟩ := h index r
    rw [e]
    exact st_foldl _ _ (fun r c hm hr => st_perform hr c (hc c hm)) _ hr

theorem st_recordInto {en : Nat → Bool} {G : GraphSt} {p : RunPass} (hp : PassOk sepDS S G p) {index : Nat} {f f' : Frame}
    (e : recordInto ⟨sepDS, en⟩ G p index f = some f') (h : St sepDS S f.recd) : St sepDS S f'.recd := by
  have reg : ∀ r : Rec, St sepDS S r → St sepDS S (registerAll p r) := fun r h =>
    st_foldl _ _ (fun r (va : View × Action) hm hr => by
      refine ⟨hr.1, fun u hu => ?_⟩
      rcases List.mem_append.mp (show u ∈ r.ctx.implicit ++ [_] from hu) with hu | hu
      · exact hr.2 u hu
      · cases List.mem_singleton.mp hu; exact hp.actions va hm) _ h
  unfold recordInto at e
  split at e
  · split at e
    · simp only at e
      split at e
      · cases e
      · rename_i r1 h1
        injection e with e
        subst e
        refine reg _ (st_body hp index (st_prepare hp h1 ?_))
        split
        · exact h
        · exact h
    · cases e
  · injection e with e
    subst e
    exact reg _ h

theorem st_recordLoop {en : Nat → Bool} {G : GraphSt} (index : Nat → Nat) :
    ∀ (passes : List RunPass) (_ : ∀ p ∈ passes, PassOk sepDS S G p) (f f' : Frame),
    recordLoop ⟨sepDS, en⟩ G index passes f = some f' → St sepDS S f.recd → St sepDS S f'.recd := by
  intro passes
  induction passes with
  | nil => intro _ f f' e h; cases e; exact h
  | cons p ps ih =>
    intro hp f f' e h
    unfold recordLoop at e
    simp only at e
    split at e
    · cases e
    · rename_i f1 h1
      refine ih (fun q hq => hp q (List.mem_cons_of_mem _ hq)) _ _ e (st_recordInto (hp p List.mem_cons_self) h1 ?_)
      exact St.ctx h _ (announce_keeps ..).2

/-- C88: whatever the passes, the attachments, the indices, the passes enabled, the state of the graph and of its dependencies
and the render pass objects kept from earlier frames, if what is declared is legal, every command recorded for a frame is legal
on the images it names. -/
theorem frame_commands_legal_partial {en : Nat → Bool} {G G' : GraphSt} {deps : List Ctx} {index : Nat → Nat} {passes : List RunPass}
    {ini : Nat → Nat → Bool} {log : List Event} {f : Frame}
    (h : ∀ p ∈ passes, PassOk sepDS S G p) (e : record ⟨sepDS, en⟩ G deps index passes ini log = some (G', f)) :
    ∀ c ∈ f.recd.cmds, Legal sepDS S c := by
  unfold record at e
  simp only at e
  split at e
  · cases e
  · rename_i f1 h1
    cases e
    refine (st_recordLoop index passes h _ _ h1 ⟨(fun c hc => by cases hc), ?_⟩).1
    intro t ht
    have : t ∈ (startCtx deps).implicit := by
      rw [← (firstAnnounce_keeps sepDS passes (startCtx deps)).2]; exact ht
    rw [startCtx_implicit] at this
    cases this

/-- **Negation**: generating the mipmaps of a depth or stencil image records an illegal blit: it is filtered. Whatever the
image (of more than one level), the view (of at least one layer), the recording and the state around. -/
theorem mipmaps_depth_illegal (env : Env) (G : GraphSt) (p : RunPass) (out : LayoutState) (v : View) (ty : ViewType) (r : Rec)
    (hi : v.image = S v.image.id) (hm : 2 ≤ v.image.mipLevels) (hl : 1 ≤ v.range.layers) (hc : ¬ Coloured v.image) :
    ∃ c ∈ (Mip.generateMipmaps env G p out v ty r).cmds, ¬ Legal sepDS S c := by
  have hw := Mip.mipmaps_work env G v ty (getNextLayoutState env.sepDS G r.ctx p v) r
  have hmem : Mip.downscale v.image v.range.baseLayer 0 ∈ Mip.work (Mip.generateMipmaps env G p out v ty r).cmds := by
    refine hw ▸ List.mem_append_right _ (List.mem_flatMap.mpr ⟨v.range.baseLayer, List.mem_range'_1.mpr ⟨Nat.le_refl _, by omega⟩,
      List.mem_map.mpr ⟨0, List.mem_range.mpr (by omega), rfl⟩⟩)
  refine ⟨_, (List.mem_filter.mp hmem).1, fun h => ?_⟩
  obtain ⟨_, _, _, _, _, _, _, _, hf⟩ := h
  have := (hf.2 (by rw [← hi]; exact hc)).1
  cases this

theorem names_of {i : Image} {r : Range} (h : 1 ≤ r.levels ∧ r.baseMip + r.levels ≤ i.mipLevels ∧ 1 ≤ r.layers
    ∧ r.baseLayer + r.layers ≤ i.arrayLayers ∧ r.aspect ≠ 0) (ha : r.aspect &&& aspects i.format = r.aspect) : Names i r := by
  refine ⟨h.1, h.2.1, h.2.2.1, h.2.2.2.1, h.2.2.2.2, fun b hb => ?_⟩
  rw [← ha, Nat.testBit_and, Bool.and_eq_true] at hb
  exact hb.2

/-! ### An example -/

/-- A colour target, an array with mipmaps, a depth and stencil image. -/
def eImages : Images
  | 1 => Run.xImg
  | 4 => ⟨4, 37, 3, 2, 5, 3, 1⟩
  | i => ⟨i, 129, 1, 1, 64, 64, 1⟩
/-- All of the array; the depth of the depth and stencil image. -/
def eArray : View := ⟨14, eImages 4, .d2, 37, ⟨1, 0, 3, 0, 2⟩⟩
def eDepth : View := ⟨15, eImages 5, .d2, 129, ⟨2, 0, 1, 0, 1⟩⟩
def eStencil : View := ⟨16, eImages 5, .d2, 129, ⟨4, 0, 1, 0, 1⟩⟩

/-- A pass that draws, one that generates mipmaps, one that samples the depth, cleared instead when disabled. -/
def eDraw : RunPass := RPass.RunPass.drawing false Run.xG RPass.aFirst none [1]
def eMips0 : RunPass := ⟨2, 1, false, ⟨0, Stage.transfer⟩, [(ImageAdder.transferInOut 0).attach 2 0 [eArray]], [], [], fun _ r => r⟩
/-- The pass, generating mipmaps. -/
def mipsOf (p : RunPass) (G : GraphSt) (ty : ViewType) (out : LayoutState) : RunPass :=
  { p with body := fun index r => match p.images.head? with
      | some a => match a.img.view index with
        | some v => Mip.generateMipmaps ⟨false, fun _ => true⟩ G p out v ty r
        | none => r
      | none => r }
def eMips : RunPass := mipsOf eMips0 Run.xG .d2 (makeLayoutState Layout.shaderReadOnly)
def eClears : RunPass := ⟨3, 1, false, ⟨0, Stage.fragmentShader⟩, [ImageAdder.sampled.attach 3 0 [eDepth]], [],
  [(eDepth, .clear eDepth 7 Layout.shaderReadOnly)], fun _ r => r⟩
def eSamples : RunPass := ⟨4, 1, false, ⟨0, Stage.fragmentShader⟩, [ImageAdder.sampled.attach 4 0 [eDepth], ImageAdder.sampled.attach 4 0 [eArray],
    ImageAdder.clearableOutputStorage.attach 4 0 [eStencil]], [],
  [], fun _ r => r.emit (.work 1)⟩

theorem ok_x : ViewOk eImages Run.xView := ⟨rfl, names_of (by decide) (by decide), by unfold Coloured; decide⟩
theorem ok_array : ViewOk eImages eArray := ⟨rfl, names_of (by decide) (by decide), by unfold Coloured; decide⟩
theorem ok_depth : ViewOk eImages eDepth := ⟨rfl, names_of (by decide) (by decide), by unfold Coloured; decide⟩
theorem ok_stencil : ViewOk eImages eStencil := ⟨rfl, names_of (by decide) (by decide), by unfold Coloured; decide⟩

theorem mips_body (p : RunPass) (G : GraphSt) (ty : ViewType) (out : LayoutState) (index : Nat) (r : Rec) :
    (mipsOf p G ty out).body index r = match (mipsOf p G ty out).images.head? with
    | some a => match a.img.view index with
      | some v => Mip.generateMipmaps ⟨false, fun _ => true⟩ G (mipsOf p G ty out) out v ty r
      | none => r
    | none => r := rfl

theorem example_passes (p : RunPass) (hp : p ∈ [eDraw, eMips, eClears, eSamples]) : PassOk false eImages Run.xG p := by
  have hp : p = eDraw ∨ p = eMips ∨ p = eClears ∨ p = eSamples := by simpa using hp
  rcases hp with rfl | rfl | rfl | rfl
  · refine ⟨?_, (fun a ha => by cases ha), (fun a ha => by cases ha), ?_⟩
    · intro a ha index v e
      have ha : a = _ := List.mem_singleton.mp ha
      subst ha
      rw [← Option.some.inj e]; exact ok_x
    · refine .draws (fun _ => none) 64 64 [1] (fun _ o e => by cases e) ?_ (fun index r => rfl)
      intro a ha _ index v e
      have ha : a = _ := List.mem_singleton.mp ha
      subst ha
      rw [← Option.some.inj e]; rfl
  · refine ⟨?_, (fun a ha => by cases ha), (fun a ha => by cases ha), ?_⟩
    · intro a ha index v e
      have ha : a = _ := List.mem_singleton.mp ha
      subst ha
      rw [← Option.some.inj e]; exact ok_array
    · refine .mipmaps .d2 (makeLayoutState Layout.shaderReadOnly) ?_ (fun index r => ⟨fun _ => true, mips_body _ _ _ _ index r⟩)
      intro a ha index v e
      cases ha
      rw [← Option.some.inj e]; rfl
  · refine ⟨?_, (fun a ha => by cases ha), ?_, ?_⟩
    · intro a ha index v e
      have ha : a = _ := List.mem_singleton.mp ha
      subst ha
      rw [← Option.some.inj e]; exact ok_depth
    · intro va ha
      have ha : va = _ := List.mem_singleton.mp ha
      subst ha
      exact ok_depth
    · exact .uses fun index r => ⟨[], (fun c hc => by cases hc), rfl⟩
  · refine ⟨?_, (fun a ha => by cases ha), (fun a ha => by cases ha), ?_⟩
    · intro a ha index v e
      have ha : a = ImageAdder.sampled.attach 4 0 [eDepth] ∨ a = ImageAdder.sampled.attach 4 0 [eArray]
        ∨ a = ImageAdder.clearableOutputStorage.attach 4 0 [eStencil] := by simpa [eSamples] using ha
      rcases ha with rfl | rfl | rfl
      · rw [← Option.some.inj e]; exact ok_depth
      · rw [← Option.some.inj e]; exact ok_array
      · rw [← Option.some.inj e]; exact ok_stencil
    · exact .uses fun index r => ⟨[.work 1], (fun c hc => by cases List.mem_singleton.mp hc; trivial), rfl⟩

/-- C88 is met by a frame that draws, generates mipmaps and clears instead of a disabled pass: it has blits, clears and
barriers of depth and stencil together. -/
example : ∃ G' f, record ⟨false, fun k => k != 3⟩ Run.xG [] (fun _ => 0) [eDraw, eMips, eClears, eSamples] (fun _ _ => false) [] = some (G', f)
    ∧ (∀ c ∈ f.recd.cmds, Legal false eImages c)
    ∧ (f.recd.cmds.filter fun | .blitImage .. => true | _ => false).length = 4
    ∧ (f.recd.cmds.filter fun | .clearImage false 5 .. => true | _ => false).length = 2
    ∧ (f.recd.cmds.filter fun | .imageBarrier 5 r .. => r.aspect == 6 | _ => false).length = 4 := by
  have h : ((record ⟨false, fun k => k != 3⟩ Run.xG [] (fun _ => 0) [eDraw, eMips, eClears, eSamples] (fun _ _ => false) []).map fun x =>
      ((x.2.recd.cmds.filter fun | .blitImage .. => true | _ => false).length,
       (x.2.recd.cmds.filter fun | .clearImage false 5 .. => true | _ => false).length,
       (x.2.recd.cmds.filter fun | .imageBarrier 5 r .. => r.aspect == 6 | _ => false).length)) = some (4, 2, 4) := by
    decide +kernel
  obtain ⟨x, e, hx⟩ := Option.map_eq_some_iff.1 h
  simp only [Prod.mk.injEq] at hx
  exact ⟨x.1, x.2, e, frame_commands_legal_partial example_passes e, hx.1, hx.2.1, hx.2.2⟩

end Verif.Use
