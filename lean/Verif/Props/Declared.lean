import Verif.Spec.Declared
import Verif.Props.Attachment
import Verif.Props.Mixed
/-
C47 and C92 in terms of the methods that declared the attachments: what `addSampledView`, `addStorageView`… promise of the
image is true when the commands of the pass run.
-/
namespace Verif.Run
open Verif.Rec Verif.Att Verif.Gpu

theorem hasFlag_noTransition {f : Nat} (h : f.testBit 4 = false) : hasFlag (7 ||| f) Flag.noTransition = false := by
  unfold hasFlag Flag.noTransition
  rw [beq_eq_false_iff_ne]
  intro e
  have := congrArg (fun x => x.testBit 4) e
  simp [Nat.testBit_and, Nat.testBit_or, h] at this
  revert this
  decide

/-- The recording prepares exactly the images whose method promises a layout, for that layout. -/
theorem adders_prepared (m : ImageAdder) (ho : m.Ordinary) (p b : Nat) (vs : List View) (clear blend : Nat) (sepDS : Bool) :
    moved (m.attach p b vs clear blend) = m.wants.isSome
    ∧ ∀ l, m.wants = some l → (m.attach p b vs clear blend).getImageLayout sepDS = l := by
  cases m
  case transferInOut f =>
    have hf : ((ImageAdder.transferInOut f).attach p b vs clear blend).flags = 7 ||| f := transferInOut_flags f p b vs
    have hn := hasFlag_noTransition ho
    have hi : hasFlag (7 ||| f) Flag.image = true := hasFlag_or _ _ _ rfl
    have hout : hasFlag (7 ||| f) Flag.output = true := hasFlag_or _ _ _ rfl
    have hfl : ((ImageAdder.transferInOut f).attach p b vs clear blend).img.flags = ImgFlag.transfer := rfl
    constructor
    · unfold moved Attachment.isNoTransition Attachment.isTransferView Attachment.isImage
      rw [hf, hn, hi]
      have ht : ((ImageAdder.transferInOut f).attach p b vs clear blend).img.isTransfer = true := by
        unfold ImgAttach.isTransfer
        rw [hfl]
        decide
      rw [ht]
      simp [ImageAdder.wants]
    · intro l hl
      cases hl
      unfold Attachment.getImageLayout Attachment.isInput Attachment.isOutput
      rw [hf, hout]
      simp only [ImgAttach.getImageLayout, ImgAttach.isSampled, ImgAttach.isTransition, ImgAttach.isStorage, ImgAttach.isTransfer]
      rw [hfl, if_neg (by decide), if_neg (by decide), if_neg (by decide), if_pos (by decide), if_pos trivial]
  all_goals
    constructor
    · simp only [moved, Attachment.isNoTransition, Attachment.isSampledView, Attachment.isStorageView,
        Attachment.isTransferView, Attachment.isTransitionView, ImageAdder.wants]
      attfull
    · intro l hl
      simp only [ImageAdder.wants] at hl
      first
        | (have e := Option.some.inj hl; subst e; attfull)
        | exact absurd hl (by simp)

variable {sepDS : Bool} {fmt : Nat → Nat} {g0 : Layouts} {G : GraphSt} {V : View → Prop} {passes : List RunPass}
  {body : RunPass → Nat → List ViewUse}

/-- C47 (partial: tidy graphs). The image of every attachment an executed pass declared with a method that promises a layout
is wholly in that layout on the GPU when the commands of the pass run; and everything recorded up to then is valid. -/
theorem promised_layouts_ready_partial (hT : TidyGraph sepDS fmt V passes) (en : Nat → Bool) (index : Nat → Nat)
    (deps : List Ctx) (hH : Honest fmt V g0 (startCtx deps) G) (ini : Nat → Nat → Bool) (log : List Event)
    (q : RunPass) (r : Rec)
    (he : Enters ⟨sepDS, en⟩ G index passes (frameStart sepDS deps passes ini log) q r)
    (m : ImageAdder) (ho : m.Ordinary) (p b : Nat) (vs : List View) (clear blend : Nat)
    (ha : m.attach p b vs clear blend ∈ q.images) (l : Nat) (hl : m.wants = some l) (v : View)
    (hv : vs = [v] ∨ vs.length ≠ 1 ∧ vs[index q.id]? = some v) :
    StreamValid g0 r.cmds ∧ InLayout fmt (execAll g0 r.cmds) v l := by
  have h := passes_start_ready_partial hT en index deps hH ini log q r he
  have hm := adders_prepared m ho p b vs clear blend sepDS
  have hw := (image_fields m p b vs clear blend).2.2.1
  refine ⟨h.1, ?_⟩
  rw [← hm.2 l hl]
  refine h.2 _ ha (by rw [hm.1, hl]; rfl) v ?_
  unfold ImgAttach.view
  rw [hw]
  rcases hv with rfl | ⟨h1, h2⟩
  · rfl
  · rw [if_neg h1, h2]

/-- C92 (partial, as `parts_and_whole_ready_partial`), in the same terms. -/
theorem parts_and_whole_declared_partial (hM : MixedGraph sepDS fmt passes body) (en : Nat → Bool) (index : Nat → Nat)
    (deps : List Ctx)
    (hH : ∀ i a l m s, HasAspect (fmt i) a → known (startCtx deps) G i l m = some s → g0 i a l m = s.layout)
    (ho : Orderly (leftIn G.inputs) (leftIn G.final.images) (leftIn (startCtx deps).images)
      (graphUses sepDS en index body passes))
    (ini : Nat → Nat → Bool) (log : List Event) (q : RunPass) (r : Rec)
    (he : Enters ⟨sepDS, en⟩ G index passes (frameStart sepDS deps passes ini log) q r)
    (m : ImageAdder) (hord : m.Ordinary) (p b : Nat) (vs : List View) (clear blend : Nat)
    (ha : m.attach p b vs clear blend ∈ q.images) (l : Nat) (hl : m.wants = some l) (v : View)
    (hv : vs = [v] ∨ vs.length ≠ 1 ∧ vs[index q.id]? = some v) :
    StreamValid g0 r.cmds ∧ InLayout fmt (execAll g0 r.cmds) v l := by
  have h := parts_and_whole_ready_partial hM en index deps hH ho ini log q r he
  have hm := adders_prepared m hord p b vs clear blend sepDS
  have hw := (image_fields m p b vs clear blend).2.2.1
  refine ⟨h.1, ?_⟩
  rw [← hm.2 l hl]
  refine h.2 _ ha (by rw [hm.1, hl]; rfl) v ?_
  unfold ImgAttach.view
  rw [hw]
  rcases hv with rfl | ⟨h1, h2⟩
  · rfl
  · rw [if_neg h1, h2]

/-- The hypotheses on the attachment are met: the last pass of the example of C92 samples the whole image. -/
theorem example_declared (index : Nat) :
    (∃ p b, ImageAdder.sampled.attach p b [mWhole] ∈ mRead.images) ∧ ImageAdder.sampled.Ordinary
    ∧ ImageAdder.sampled.wants = some Layout.shaderReadOnly
    ∧ (∃ p b f, (ImageAdder.transferInOut f).Ordinary
        ∧ ((ImageAdder.transferInOut f).attach p b [mWhole]).img.view index = some mWhole) :=
  ⟨⟨_, _, List.mem_singleton.2 rfl⟩, trivial, rfl, 0, 0, 32, by unfold ImageAdder.Ordinary; decide, rfl⟩

/-- An image its user asked to leave alone is not prepared. -/
theorem noTransition_left_alone (p b : Nat) (vs : List View) :
    moved ((ImageAdder.transferInOut Flag.noTransition).attach p b vs) = false := by
  unfold moved Attachment.isNoTransition
  rw [transferInOut_flags]
  rfl

end Verif.Run
