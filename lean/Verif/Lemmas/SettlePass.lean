import Verif.Lemmas.Settle
/-
The parts of the recording of a pass, as steps (Lemmas/Settle.lean).
-/
namespace Verif.Settle
open Verif.Rec Verif.Att Verif.Run Verif.Gpu Verif.RPass

variable {sepDS : Bool} {fmt : Nat → Nat} {V : View → Prop} {passes : List RunPass} {inp : LayoutMap} {out : Images}
  {base : Nat → Prop} {nx : LayoutMap}

/-- A step that may have no result: whether it has one depends on nothing. -/
def OSteps (base : Nat → Prop) (V : View → Prop) (inp : LayoutMap) (out : Images) (nx : LayoutMap) (T : Map) (N : Ctx)
    (S : GraphSt → Rec → Option Rec) : Prop :=
  (∀ G r, S G r = none) ∨ ∃ S', (∀ G r, S G r = some (S' G r)) ∧ Steps base V inp out nx T N S'

theorem OSteps.of {T : Map} {N : Ctx} {S : GraphSt → Rec → Rec} (h : Steps base V inp out nx T N S) :
    OSteps base V inp out nx T N (fun G r => some (S G r)) := Or.inr ⟨S, fun _ _ => rfl, h⟩

theorem osteps_fold {α : Type} {f : GraphSt → Rec → α → Option Rec} : ∀ (as : List α),
    (∀ a ∈ as, ∀ T N, Ok V inp T → NOk V nx N → OSteps base V inp out nx T N (fun G r => f G r a)) →
    ∀ (T : Map) (N : Ctx), Ok V inp T → NOk V nx N →
    OSteps base V inp out nx T N (fun G r => Run.foldOpt (f G) r as) := by
  intro as
  induction as with
  | nil => intro _ T N hO hN; exact OSteps.of (steps_id hO hN)
  | cons a as ih =>
    intro h T N hO hN
    rcases h a (by simp) T N hO hN with h1 | ⟨S1, e1, T1, N1, hO1, hN1, s1⟩
    · left
      intro G r
      simp only [Run.foldOpt, h1]
    · rcases ih (fun b hb => h b (by simp [hb])) T1 N1 hO1 hN1 with h2 | ⟨S2, e2, T2, N2, hO2, hN2, s2⟩
      · left
        intro G r
        simp only [Run.foldOpt, e1, h2]
      · right
        refine ⟨fun G r => S2 G (S1 G r), fun G r => ?_, T2, N2, hO2, hN2, s1.comp s2⟩
        simp only [Run.foldOpt, e1, e2]

theorem OSteps.comp {T : Map} {N : Ctx} {S S' : GraphSt → Rec → Option Rec} (h : OSteps base V inp out nx T N S)
    (h' : ∀ T N, Ok V inp T → NOk V nx N → OSteps base V inp out nx T N S') :
    OSteps base V inp out nx T N (fun G r => match S G r with | none => none | some r => S' G r) := by
  rcases h with h1 | ⟨S1, e1, T1, N1, hO1, hN1, s1⟩
  · left; intro G r; simp only [h1]
  · rcases h' T1 N1 hO1 hN1 with h2 | ⟨S2, e2, T2, N2, hO2, hN2, s2⟩
    · left; intro G r; simp only [e1, h2]
    · right
      refine ⟨fun G r => S2 G (S1 G r), fun G r => ?_, T2, N2, hO2, hN2, s1.comp s2⟩
      simp only [e1, e2]

/-- After a barrier the view is in one state. -/
theorem after_barrier (hT : Tidy sepDS fmt V) (hne : ∀ v, V v → v.range.NonEmpty) {f : LayoutMap} {T : Map}
    {N : Ctx} {r : Rec} (hO : Ok V inp T) (hf : ∀ v, V v → Whole f v) {v : View} (hv : V v)
    {w : LayoutState} (hw : w.layout ≠ Layout.undefined) {force : Bool}
    (h : Sim base f (upd T v.image.id v.range (barrierTr w force)) N r) :
    ∃ s : LayoutState, s.layout ≠ Layout.undefined ∧ UniformState r.ctx.images v.image.id v.range s := by
  rcases sim_view (ok_barrier hT hO hv hw force) h hf hv with h1 | ⟨s, hs, hu⟩
  · exfalso
    obtain ⟨l, m, hl⟩ := v.range.nonEmpty_iff.1 (hne v hv)
    have h2 := h1 l m hl
    rw [h.cells] at h2
    unfold upd at h2
    rw [if_pos ⟨rfl, hl⟩] at h2
    unfold barrierTr at h2
    split at h2
    · simp [Tr.val] at h2
    · rw [guard_val] at h2
      unfold guardOpt at h2
      split at h2
      · simp at h2
      · split at h2 <;> simp at h2
  · exact ⟨s, hs, hu⟩

theorem steps_move (hT : Tidy sepDS fmt V) (hne : ∀ v, V v → v.range.NonEmpty) (hin : ∀ v, V v → Whole inp v) (en : Nat → Bool)
    {T : Map} {N : Ctx} (hO : Ok V inp T) (hN : NOk V nx N) (a : Attachment) {v : View} (hv : V v)
    (hlay : a.getImageLayout sepDS ≠ Layout.undefined) :
    Steps base V inp out nx T N (fun G r =>
      let needed := makeLayoutState (a.getImageLayout sepDS)
      let cur : LayoutState × Ctx :=
        if !a.isInput then (makeLayoutState Layout.undefined, r.ctx) else getCurrentLayoutState G r.ctx v
      let r : Rec := { r with ctx := cur.2 }
      if a.isClearableImage then
        let r := r.viewBarrier ⟨sepDS, en⟩ v cur.1.layout clearState
        let r := r.emit (.clearImage (isColourFormat v.format) v.image.id Layout.transferDst v.range 0)
        r.viewBarrier ⟨sepDS, en⟩ v Layout.transferDst needed
      else r.viewBarrier ⟨sepDS, en⟩ v cur.1.layout needed) := by
  have hlook : ∃ T1, Ok V inp T1 ∧ ∀ G r, Cond V inp out G → Sim base G.final.images T N r →
      let cur : LayoutState × Ctx :=
        if !a.isInput then (makeLayoutState Layout.undefined, r.ctx) else getCurrentLayoutState G r.ctx v
      Sim base G.final.images T1 N { r with ctx := cur.2 }
      ∧ (cur.1.layout = Layout.undefined ∨ ∃ s : LayoutState, s.layout ≠ Layout.undefined
        ∧ UniformState cur.2.images v.image.id v.range s) := by
    by_cases hi : a.isInput = true
    · obtain ⟨I, hI, hIg⟩ := whole_inputs hin hv
      refine ⟨_, ok_look hT hO hv hI hIg, ?_⟩
      intro G r hG h
      simp only [hi, Bool.not_true, Bool.false_eq_true, if_false]
      exact sim_look hT hne hG hO h hv hI hIg
    · refine ⟨T, hO, ?_⟩
      intro G r hG h
      simp only [Bool.not_eq_true] at hi
      simp only [hi, Bool.not_false, if_true]
      exact ⟨h, Or.inl rfl⟩
  obtain ⟨T1, hO1, hL⟩ := hlook
  by_cases hc : a.isClearableImage = true
  · have hO2 := ok_barrier hT hO1 hv (w := clearState) (by decide) false
    refine ⟨_, N, ok_barrier hT hO2 hv (w := makeLayoutState (a.getImageLayout sepDS)) hlay false, hN, ?_⟩
    intro G r hG h
    obtain ⟨h1, h2⟩ := hL G r hG h
    simp only [hc, if_true]
    generalize (if (!a.isInput) = true then (makeLayoutState Layout.undefined, r.ctx) else getCurrentLayoutState G r.ctx v) = cur at h1 h2
    have h3 := sim_barrier hT hne en hO1 hG.final h1 hv cur.1.layout (w := clearState) (by decide) false h2
    have h4 := sim_emit h3 (.clearImage (isColourFormat v.format) v.image.id Layout.transferDst v.range 0)
    exact sim_barrier hT hne en hO2 hG.final h4 hv Layout.transferDst hlay false
      (Or.inr (after_barrier hT hne hO1 hG.final hv (by decide) h4))
  · refine ⟨_, N, ok_barrier hT hO1 hv (w := makeLayoutState (a.getImageLayout sepDS)) hlay false, hN, ?_⟩
    intro G r hG h
    obtain ⟨h1, h2⟩ := hL G r hG h
    simp only [hc]
    exact sim_barrier hT hne en hO1 hG.final h1 hv _ hlay false h2

theorem osteps_image (hT : Tidy sepDS fmt V) (hne : ∀ v, V v → v.range.NonEmpty) (hin : ∀ v, V v → Whole inp v) (en : Nat → Bool)
    (index : Nat) (a : Attachment) (hv : ∀ v, a.img.view index = some v → V v)
    (hlay : moved a = true → a.getImageLayout sepDS ≠ Layout.undefined) (T : Map) (N : Ctx) (hO : Ok V inp T) (hN : NOk V nx N) :
    OSteps base V inp out nx T N (fun G r => recordImage ⟨sepDS, en⟩ G index r a) := by
  cases hvw : a.img.view index with
  | none => left; intro G r; simp only [recordImage, hvw]
  | some v =>
    right
    have h1 := steps_runImplicit (base := base) (out := out) hT hne en _ T N v rfl hO hN
    by_cases hm : moved a = true
    · refine ⟨_, ?_, h1.comp fun T N hO hN => steps_move hT hne hin en hO hN a (hv v hvw) (hlay hm)⟩
      intro G r
      simp only [recordImage, hvw, hm, if_true]
      split <;> rfl
    · refine ⟨_, ?_, h1⟩
      intro G r
      simp only [recordImage, hvw, hm]
      rfl

theorem osteps_buffer (compute : Bool) (index : Nat) (a : Attachment) (T : Map) (N : Ctx) (hO : Ok V inp T) (hN : NOk V nx N) :
    OSteps base V inp out nx T N (fun _ r => recordBuffer compute index r a) := by
  unfold recordBuffer
  by_cases hg : guarded a = true
  · simp only [hg, if_true]
    cases a.buf.buffer index with
    | none => left; intro G r; rfl
    | some b =>
      simp only
      have hi : ∀ r r' : Rec, rest r.ctx = rest r'.ctx → r.ctx.getAccess b = r'.ctx.getAccess b := by
        intro r r' h
        show (rest r.ctx).getAccess b = (rest r'.ctx).getAccess b
        rw [h]
      by_cases hc : a.isClearableBuffer = true
      · simp only [hc, if_true]
        exact OSteps.of (((steps_bufferBarrier hO hN b _ _ (fun r => r.ctx.getAccess b) hi _ false).comp
          fun T N hO hN => steps_emit hO hN _).comp fun T N hO hN =>
          steps_bufferBarrier hO hN b _ _ (fun _ => ⟨Access.transferWrite, Stage.transfer⟩) (fun _ _ _ => rfl) _ false)
      · simp only [hc]
        exact OSteps.of (steps_bufferBarrier hO hN b _ _ (fun r => r.ctx.getAccess b) hi _ false)
  · simp only [hg]
    exact OSteps.of (steps_id hO hN)

theorem osteps_prepare (hT : TidyViews sepDS fmt V passes) (hne : ∀ v, V v → v.range.NonEmpty) (hin : ∀ v, V v → Whole inp v)
    (en : Nat → Bool) {p : RunPass} (hp : p ∈ passes) (index : Nat) (T : Map) (N : Ctx) (hO : Ok V inp T) (hN : NOk V nx N) :
    OSteps base V inp out nx T N (fun G r => prepare ⟨sepDS, en⟩ G p index r) := by
  unfold prepare
  refine OSteps.comp (S' := fun _ r => Run.foldOpt (recordBuffer p.compute index) r p.buffers) ?_ ?_
  · refine osteps_fold (f := fun G r a => recordImage ⟨sepDS, en⟩ G index r a) p.images ?_ T N hO hN
    intro a ha T N hO hN
    exact osteps_image hT.tidy hne hin en index a (fun v hv => (hT.attached v ⟨p, hp, a, ha, view_mem hv⟩).1)
      (hT.layouts p hp a ha) T N hO hN
  · intro T N hO hN
    exact osteps_fold (f := fun _ r a => recordBuffer p.compute index r a) p.buffers
      (fun a _ T N hO hN => osteps_buffer _ _ a T N hO hN) T N hO hN

/-- If a pass is entered, its attachments have views. -/
theorem prepare_views {env : Env} {G : GraphSt} {p : RunPass} {index : Nat} {r r' : Rec} (e : prepare env G p index r = some r') :
    ∀ a ∈ p.images, ∃ v, a.img.view index = some v := by
  have key : ∀ (as : List Attachment) (r r' : Rec), Run.foldOpt (recordImage env G index) r as = some r' →
      ∀ a ∈ as, ∃ v, a.img.view index = some v := by
    intro as
    induction as with
    | nil => intro _ _ _ a ha; simp at ha
    | cons b as ih =>
      intro r r' e a ha
      unfold Run.foldOpt at e
      cases e1 : recordImage env G index r b with
      | none => rw [e1] at e; simp at e
      | some r1 =>
        rw [e1] at e
        rcases List.mem_cons.1 ha with rfl | ha
        · cases hv : a.img.view index with
          | none => simp [recordImage, hv] at e1
          | some v => exact ⟨v, rfl⟩
        · exact ih r1 r' e a ha
  unfold prepare at e
  cases e1 : Run.foldOpt (recordImage env G index) r p.images with
  | none => rw [e1] at e; simp at e
  | some r1 => exact key _ _ _ e1

theorem steps_register {T : Map} {N : Ctx} (hO : Ok V inp T) (hN : NOk V nx N) (t : Implicit) (ht : ActionIn V t.action) :
    Steps base V inp out nx T N (fun _ r => r.register t) := by
  refine steps_other hO { N with implicit := N.implicit ++ [t] } ?_ _ (fun _ _ => rfl) ?_
  · refine ⟨?_, hN.next⟩
    intro u hu
    rcases List.mem_append.1 hu with hu | hu
    · exact hN.pending u hu
    · simp at hu; subst hu; exact ht
  · rintro G r _ rfl
    rfl

theorem steps_foldl {α : Type} {f : Rec → α → Rec} : ∀ (as : List α),
    (∀ a ∈ as, ∀ T N, Ok V inp T → NOk V nx N → Steps base V inp out nx T N (fun _ r => f r a)) →
    ∀ (T : Map) (N : Ctx), Ok V inp T → NOk V nx N → Steps base V inp out nx T N (fun _ r => as.foldl f r) := by
  intro as
  induction as with
  | nil => intro _ T N hO hN; exact steps_id hO hN
  | cons a as ih =>
    intro h T N hO hN
    simp only [List.foldl_cons]
    exact (h a (by simp) T N hO hN).comp (S' := fun _ r => as.foldl f r) (ih fun b hb => h b (by simp [hb]))

theorem steps_registerAll (hT : TidyViews sepDS fmt V passes) {p : RunPass} (hp : p ∈ passes) (T : Map) (N : Ctx)
    (hO : Ok V inp T) (hN : NOk V nx N) : Steps base V inp out nx T N (fun _ r => registerAll p r) := by
  unfold registerAll
  exact steps_foldl _ (fun va hva T N hO hN => steps_register hO hN _ (hT.actions p hp va hva).2.1) T N hO hN

theorem steps_perform (hT : Tidy sepDS fmt V) (hne : ∀ v, V v → v.range.NonEmpty) (cs : List Call)
    (hc : ∀ c ∈ cs, BodyCall V passes c) (T : Map) (N : Ctx)
    (hO : Ok V inp T) (hN : NOk V nx N) : Steps base V inp out nx T N (fun _ r => performAll sepDS r cs) := by
  unfold performAll
  refine steps_foldl cs ?_ T N hO hN
  intro c hcm T N hO hN
  have hcc := hc c hcm
  cases c with
  | barrier v i w f =>
    obtain ⟨h1, h2, rfl⟩ := hcc
    exact steps_barrier hT hne _ hO hN h1 h2 f
  | buffer q => exact steps_bufferBarrier hO hN _ _ _ (fun _ => _) (fun _ _ _ => rfl) _ _
  | register t => exact steps_register hO hN t hcc.2.1
  | use v en => exact steps_runImplicit hT hne en _ T N v rfl hO hN
  | work k => exact steps_emit hO hN _

/-! ### Transfers -/

theorem steps_getD {T : Map} {N : Ctx} (hO : Ok V inp T) (hN : NOk V nx N) {S : GraphSt → Rec → Option Rec}
    (h : OSteps base V inp out nx T N S) : Steps base V inp out nx T N (fun G r => (S G r).getD r) := by
  rcases h with h | ⟨S', e, h⟩
  · simp only [h, Option.getD_none]
    exact steps_id hO hN
  · simp only [e, Option.getD_some]
    exact h

theorem osteps_copyPairs (hT : Tidy sepDS fmt V) (hne : ∀ v, V v → v.range.NonEmpty) (en : Nat → Bool) (size : Xfer.Extent)
    (final index : Nat) : ∀ (n : Nat) (as : List Attachment), as.length ≤ n → (∀ a ∈ as, ∀ v, a.img.view index = some v → V v) →
    ∀ (T : Map) (N : Ctx), Ok V inp T → NOk V nx N →
    OSteps base V inp out nx T N (fun _ r => Xfer.copyPairs ⟨sepDS, en⟩ size final index as r) := by
  intro n
  induction n with
  | zero =>
    intro as hl _ T N hO hN
    cases as with
    | nil => exact OSteps.of (steps_id hO hN)
    | cons a as => simp at hl
  | succ n ih =>
    intro as hl hv T N hO hN
    match as, hl, hv with
    | [], _, _ => exact OSteps.of (steps_id hO hN)
    | [a], _, _ => left; intro G r; rfl
    | s :: t :: rest, hl, hv =>
      simp only [Xfer.copyPairs]
      refine OSteps.comp (S := fun _ r => Xfer.copyPair ⟨sepDS, en⟩ size final index r s t)
        (S' := fun _ r => Xfer.copyPairs ⟨sepDS, en⟩ size final index rest r) ?_
        (ih rest (by simp at hl; omega) fun a ha => hv a (by simp [ha]))
      unfold Xfer.copyPair
      cases hs : s.img.view index with
      | none => left; intro G r; rfl
      | some vs =>
        cases ht : t.img.view index with
        | none => left; intro G r; rfl
        | some vt =>
          exact OSteps.of ((steps_emit hO hN _).comp fun T N hO hN =>
            steps_finalBarrier hT hne en hO hN (hv t (by simp) vt ht) final)

theorem osteps_imageBlit (p : RunPass) (so : Xfer.Offset) (ss : Xfer.Extent) (dO : Xfer.Offset) (dS : Xfer.Extent) (filter index : Nat)
    (T : Map) (N : Ctx) (hO : Ok V inp T) (hN : NOk V nx N) :
    OSteps base V inp out nx T N (fun _ r => Xfer.imageBlit p so ss dO dS filter index r) := by
  unfold Xfer.imageBlit
  cases p.images.head? with
  | none => left; intro G r; rfl
  | some a =>
    cases p.images.getLast? with
    | none => left; intro G r; rfl
    | some b =>
      simp only
      cases a.img.view index with
      | none => left; intro G r; rfl
      | some v =>
        cases b.img.view index with
        | none => left; intro G r; rfl
        | some w => exact OSteps.of (steps_emit hO hN _)

theorem osteps_bufferToImage (p : RunPass) (o : Xfer.Offset) (s : Xfer.Extent) (index : Nat)
    (T : Map) (N : Ctx) (hO : Ok V inp T) (hN : NOk V nx N) :
    OSteps base V inp out nx T N (fun _ r => Xfer.bufferToImage p o s index r) := by
  unfold Xfer.bufferToImage
  cases p.images.getLast? with
  | none => left; intro G r; rfl
  | some a =>
    cases p.buffers.head? with
    | none => left; intro G r; rfl
    | some b =>
      simp only
      cases a.img.view index with
      | none => left; intro G r; rfl
      | some v =>
        cases b.buf.buffer index with
        | none => left; intro G r; rfl
        | some w => exact OSteps.of (steps_emit hO hN _)

theorem osteps_imageToBuffer (p : RunPass) (o : Xfer.Offset) (s : Xfer.Extent) (index : Nat)
    (T : Map) (N : Ctx) (hO : Ok V inp T) (hN : NOk V nx N) :
    OSteps base V inp out nx T N (fun _ r => Xfer.imageToBuffer p o s index r) := by
  unfold Xfer.imageToBuffer
  cases p.images.getLast? with
  | none => left; intro G r; rfl
  | some a =>
    cases p.buffers.head? with
    | none => left; intro G r; rfl
    | some b =>
      simp only
      cases a.img.view index with
      | none => left; intro G r; rfl
      | some v =>
        cases b.buf.buffer index with
        | none => left; intro G r; rfl
        | some w => exact OSteps.of (steps_emit hO hN _)

theorem osteps_bufferCopy (p : RunPass) (o n : Nat) (index : Nat)
    (T : Map) (N : Ctx) (hO : Ok V inp T) (hN : NOk V nx N) :
    OSteps base V inp out nx T N (fun _ r => Xfer.bufferCopy p o n index r) := by
  unfold Xfer.bufferCopy
  cases p.buffers.head? with
  | none => left; intro G r; rfl
  | some a =>
    cases p.buffers.getLast? with
    | none => left; intro G r; rfl
    | some b =>
      simp only
      cases a.buf.buffer index with
      | none => left; intro G r; rfl
      | some s =>
        cases b.buf.buffer index with
        | none => left; intro G r; rfl
        | some t =>
          have bb : ∀ (b o s : Nat) (i w : AccessState) (T : Map) (N : Ctx), Ok V inp T → NOk V nx N →
              Steps base V inp out nx T N (fun _ r => r.bufferBarrier b o s i w) := fun b o s i w T N hO hN =>
            steps_bufferBarrier hO hN b o s (fun _ => i) (fun _ _ _ => rfl) w false
          exact OSteps.of (((((bb _ _ _ _ _ T N hO hN).comp (bb _ _ _ _ _)).comp fun T N hO hN => steps_emit hO hN _).comp
            (bb _ _ _ _ _)).comp (bb _ _ _ _ _))

end Verif.Settle
