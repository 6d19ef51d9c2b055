import Verif.Props.Mixed
import Verif.Props.Transfer
/-
C92 for the library's transfer passes: their bodies are of the kind `MixedGraph` asks for.
-/
namespace Verif.Run
open Verif.Rec Verif.Att Verif.Gpu Verif.Xfer

variable {sepDS : Bool} {fmt : Nat → Nat}

/-- What `ImageCopy` leaves its destinations in, when a final layout is configured. -/
def copyUses (final index : Nat) : List Attachment → Option (List ViewUse)
  | [] => some []
  | [_] => none
  | s :: t :: rest =>
    match s.img.view index, t.img.view index, copyUses final index rest with
    | some _, some v, some us => some ((if final = Layout.undefined then [] else [⟨v, final⟩]) ++ us)
    | _, _, _ => none

/-- A view in a layout: so is what a transfer command selects of it. -/
theorem plain_selects {v : View} (hv : PlainView sepDS fmt v) {g : Layouts} {lay : Nat} (h : InLayout fmt g v lay) :
    ∀ a l m, Selects (layersOf v.range) a l m → g v.image.id a l m = lay := by
  intro a l m hs
  refine h a l m ?_ (layersOf_has hv.some hs.2)
  rw [← hv.format]
  exact aspect_of_whole hv.aspect hs.1

theorem declared_use {p : RunPass} {index : Nat} {a : Attachment} (ha : a ∈ p.images) {lay : Nat}
    (hd : Declared sepDS a lay) {v : View} (hv : a.img.view index = some v) :
    (⟨v, lay⟩ : ViewUse) ∈ attachUses sepDS index p := by
  have := mem_attachUses (sepDS := sepDS) ha hd.1 hv
  rw [hd.2] at this
  exact this

theorem apart_symm {v w : View} (h : View.Apart v w) : View.Apart w v := by
  rcases h with h | h
  · exact Or.inl (Ne.symm h)
  · exact Or.inr fun l m hx => h l m ⟨hx.2, hx.1⟩

/-- The steps of `ImageCopy`. -/
theorem copy_steps (en : Nat → Bool) {p : RunPass} {size : Extent} {final index : Nat}
    (hvw : ∀ u ∈ attachUses sepDS index p, PlainView sepDS fmt u.view) :
    ∀ (as : List Attachment), (∀ a ∈ as, a ∈ p.images) →
    (as.Pairwise fun a b => ∀ v w, a.img.view index = some v → b.img.view index = some w → View.Apart v w) →
    (∀ ab ∈ pairs as, Declared sepDS ab.1 Layout.transferSrc ∧ Declared sepDS ab.2 Layout.transferDst) →
    ∀ (r : Rec) (since : List ViewUse),
    (∀ a ∈ as, ∀ v, a.img.view index = some v → ∀ w ∈ since, View.Apart v w.view) →
    match copyUses final index as with
    | none => copyPairs ⟨sepDS, en⟩ size final index as r = none
    | some us => ∃ steps : List BodyStep,
      copyPairs ⟨sepDS, en⟩ size final index as r = some (steps.foldl (BodyStep.perform sepDS) r)
      ∧ StepsOk fmt (attachUses sepDS index p) since steps ∧ steps.flatMap BodyStep.uses = us
  | [], _, _, _, r, since, _ => ⟨[], rfl, trivial, rfl⟩
  | [_], _, _, _, _, _, _ => rfl
  | a :: b :: rest, hsub, hpw, hd, r, since, hs => by
    obtain ⟨d1, d2⟩ := hd (a, b) (by simp [pairs])
    have p1 := List.pairwise_cons.1 hpw
    have p2 := List.pairwise_cons.1 p1.2
    unfold copyUses copyPairs copyPair
    cases es : a.img.view index with
    | none => simp
    | some s =>
      cases et : b.img.view index with
      | none => simp
      | some t =>
        simp only
        have us := declared_use (hsub a (by simp)) d1 es
        have ut := declared_use (hsub b (by simp)) d2 et
        have sa := hs a (by simp) s es
        have ta := hs b (by simp) t et
        have vs := hvw _ us
        have vt := hvw _ ut
        by_cases hf : final = Layout.undefined
        · have efb : ∀ r : Rec, r.finalBarrier ⟨sepDS, en⟩ t final = r := by
            intro r
            unfold Rec.finalBarrier
            simp [hf]
          rw [efb]
          have ih := copy_steps en (size := size) (final := final) hvw rest (fun x hx => hsub x (by simp [hx])) p2.2
            (fun ab hab => hd ab (by simp [pairs, hab]))
            (r.emit (.copyImage s.image.id Layout.transferSrc (layersOf s.range) t.image.id Layout.transferDst
              (layersOf t.range) size.w size.h size.d)) since (fun x hx => hs x (by simp [hx]))
          cases eu : copyUses final index rest with
          | none => rw [eu] at ih; exact ih
          | some us' =>
            rw [eu] at ih
            obtain ⟨steps, e1, e2, e3⟩ := ih
            refine ⟨.cmd _ [⟨s, Layout.transferSrc⟩, ⟨t, Layout.transferDst⟩] :: steps, e1, ⟨⟨fun _ => rfl, ?_, ?_⟩, e2⟩, ?_⟩
            · intro g hg
              exact ⟨plain_selects vs (hg _ (by simp)), plain_selects vt (hg ⟨t, Layout.transferDst⟩ (by simp))⟩
            · intro u hu
              simp only [List.mem_cons, List.not_mem_nil, or_false] at hu
              rcases hu with rfl | rfl
              · exact ⟨us, sa⟩
              · exact ⟨ut, ta⟩
            · rw [if_pos hf]
              simpa [BodyStep.uses] using e3
        · have efb : ∀ r : Rec, r.finalBarrier ⟨sepDS, en⟩ t final
              = Gpu.perform sepDS r (.barrier t Layout.undefined (makeLayoutState final) false) := by
            intro r
            unfold Rec.finalBarrier
            simp only [bne_iff_ne, ne_eq, hf, not_false_eq_true, if_true]
            rfl
          rw [efb]
          have ih := copy_steps en (size := size) (final := final) hvw rest (fun x hx => hsub x (by simp [hx])) p2.2
            (fun ab hab => hd ab (by simp [pairs, hab]))
            (Gpu.perform sepDS (r.emit (.copyImage s.image.id Layout.transferSrc (layersOf s.range) t.image.id
              Layout.transferDst (layersOf t.range) size.w size.h size.d))
              (.barrier t Layout.undefined (makeLayoutState final) false)) (since ++ [⟨t, final⟩]) (by
                intro x hx v hv w hw
                rw [List.mem_append] at hw
                rcases hw with hw | hw
                · exact hs x (by simp [hx]) v hv w hw
                · simp only [List.mem_singleton] at hw
                  subst hw
                  exact apart_symm (p2.1 x hx t v et hv))
          cases eu : copyUses final index rest with
          | none => rw [eu] at ih; exact ih
          | some us' =>
            rw [eu] at ih
            obtain ⟨steps, e1, e2, e3⟩ := ih
            refine ⟨.cmd _ [⟨s, Layout.transferSrc⟩, ⟨t, Layout.transferDst⟩]
              :: .call (.barrier t Layout.undefined (makeLayoutState final) false) :: steps, e1,
              ⟨⟨fun _ => rfl, ?_, ?_⟩, ⟨rfl, hf⟩, e2⟩, ?_⟩
            · intro g hg
              exact ⟨plain_selects vs (hg _ (by simp)), plain_selects vt (hg ⟨t, Layout.transferDst⟩ (by simp))⟩
            · intro u hu
              simp only [List.mem_cons, List.not_mem_nil, or_false] at hu
              rcases hu with rfl | rfl
              · exact ⟨us, sa⟩
              · exact ⟨ut, ta⟩
            · rw [if_neg hf]
              simpa [BodyStep.uses, callUses, makeLayoutState] using e3

/-- C92: the bodies of the library's transfer passes do what `MixedGraph` asks for; only `ImageCopy` with a final layout
leaves views in other layouts than the declared ones. -/
theorem transfer_bodies {p : RunPass} (hX : Transfers sepDS p) (index : Nat)
    (hvw : ∀ u ∈ attachUses sepDS index p, PlainView sepDS fmt u.view)
    (hap : p.images.Pairwise fun a b => ∀ v w, a.img.view index = some v → b.img.view index = some w → View.Apart v w) :
    BodyDoes sepDS fmt p index []
    ∨ ∃ en size final us, (∀ i r, p.body i r = (Xfer.imageCopy ⟨sepDS, en⟩ p size final i r).getD r)
      ∧ copyUses final index p.images = some us ∧ BodyDoes sepDS fmt p index us := by
  have same : ∀ r : Rec, p.body index r = r → ∃ steps : List BodyStep,
      p.body index r = steps.foldl (BodyStep.perform sepDS) r
      ∧ StepsOk fmt (attachUses sepDS index p) [] steps ∧ steps.flatMap BodyStep.uses = [] :=
    fun r e => ⟨[], e, trivial, rfl⟩
  cases hX with
  | imageCopy en size final body declared =>
    have key := fun r => copy_steps (sepDS := sepDS) en (size := size) (final := final) hvw p.images (fun _ h => h) hap
      declared r [] (by simp)
    cases eu : copyUses final index p.images with
    | none =>
      left
      intro r
      have := key r
      rw [eu] at this
      refine same r ?_
      rw [body]
      unfold Xfer.imageCopy
      rw [this]
      rfl
    | some us =>
      refine Or.inr ⟨en, size, final, us, body, eu, fun r => ?_⟩
      have := key r
      rw [eu] at this
      obtain ⟨steps, e1, e2, e3⟩ := this
      refine ⟨steps, ?_, e2, e3⟩
      rw [body]
      unfold Xfer.imageCopy
      rw [e1]
      rfl
  | imageBlit so ss dof ds fi body d1 d2 =>
    left
    intro r
    unfold Xfer.imageBlit at body
    cases ha : p.images.head? with
    | none => exact same r (by rw [body]; simp [ha])
    | some a =>
      cases hb : p.images.getLast? with
      | none => exact same r (by rw [body]; simp [ha, hb])
      | some b =>
        cases es : a.img.view index with
        | none => exact same r (by rw [body]; simp [ha, hb, es])
        | some s =>
          cases et : b.img.view index with
          | none => exact same r (by rw [body]; simp [ha, hb, es, et])
          | some t =>
            have us := declared_use (List.mem_of_mem_head? ha) (d1 a ha) es
            have ut := declared_use (List.mem_of_getLast? hb) (d2 b hb) et
            refine ⟨[.cmd _ [⟨s, Layout.transferSrc⟩, ⟨t, Layout.transferDst⟩]], by rw [body]; simp only [ha, hb, es, et]; rfl,
              ⟨⟨fun _ => rfl, ?_, ?_⟩, trivial⟩, rfl⟩
            · intro g hg
              exact ⟨plain_selects (hvw _ us) (hg _ (by simp)),
                plain_selects (hvw _ ut) (hg ⟨t, Layout.transferDst⟩ (by simp))⟩
            · intro u hu
              simp only [List.mem_cons, List.not_mem_nil, or_false] at hu
              rcases hu with rfl | rfl
              · exact ⟨us, by simp⟩
              · exact ⟨ut, by simp⟩
  | bufferCopy co cr body =>
    left
    intro r
    unfold Xfer.bufferCopy at body
    cases ha : p.buffers.head? with
    | none => exact same r (by rw [body]; simp [ha])
    | some a =>
      cases hb : p.buffers.getLast? with
      | none => exact same r (by rw [body]; simp [ha, hb])
      | some b =>
        cases es : a.buf.buffer index with
        | none => exact same r (by rw [body]; simp [ha, hb, es])
        | some s =>
          cases et : b.buf.buffer index with
          | none => exact same r (by rw [body]; simp [ha, hb, es, et])
          | some t =>
            refine ⟨[.call (.buffer ⟨s, a.buf.offset, a.buf.size, ⟨Access.shaderWrite, Stage.fragmentShader⟩, ⟨Access.transferRead, Stage.transfer⟩, false⟩),
              .call (.buffer ⟨t, b.buf.offset, b.buf.size, ⟨0, Stage.bottomOfPipe⟩, ⟨Access.transferWrite, Stage.transfer⟩, false⟩),
              .cmd (.copyBuffer s t (a.buf.offset + co) (b.buf.offset + co) cr) [],
              .call (.buffer ⟨t, b.buf.offset, b.buf.size, ⟨0, Stage.bottomOfPipe⟩, ⟨Access.shaderRead, Stage.computeShader⟩, false⟩),
              .call (.buffer ⟨s, a.buf.offset, a.buf.size, ⟨0, Stage.bottomOfPipe⟩, ⟨Access.shaderWrite, Stage.fragmentShader⟩, false⟩)],
              by rw [body]; simp only [ha, hb, es, et]; rfl,
              ⟨trivial, trivial, ⟨⟨fun _ => rfl, fun _ _ => trivial, by simp⟩, trivial, trivial, trivial⟩⟩, rfl⟩
  | bufferToImage o s body d =>
    left
    intro r
    unfold Xfer.bufferToImage at body
    cases ha : p.images.getLast? with
    | none => exact same r (by rw [body]; simp [ha])
    | some a =>
      cases hb : p.buffers.head? with
      | none => exact same r (by rw [body]; simp [ha, hb])
      | some b =>
        cases et : a.img.view index with
        | none => exact same r (by rw [body]; simp [ha, hb, et])
        | some t =>
          cases es : b.buf.buffer index with
          | none => exact same r (by rw [body]; simp [ha, hb, es, et])
          | some s =>
            have ut := declared_use (List.mem_of_getLast? ha) (d a ha) et
            refine ⟨[.cmd _ [⟨t, Layout.transferDst⟩]], by rw [body]; simp only [ha, hb, es, et]; rfl,
              ⟨⟨fun _ => rfl, ?_, ?_⟩, trivial⟩, rfl⟩
            · intro g hg
              exact plain_selects (hvw _ ut) (hg _ (by simp))
            · intro u hu
              simp only [List.mem_singleton] at hu
              subst hu
              exact ⟨ut, by simp⟩
  | imageToBuffer o s body d =>
    left
    intro r
    unfold Xfer.imageToBuffer at body
    cases ha : p.images.getLast? with
    | none => exact same r (by rw [body]; simp [ha])
    | some a =>
      cases hb : p.buffers.head? with
      | none => exact same r (by rw [body]; simp [ha, hb])
      | some b =>
        cases et : a.img.view index with
        | none => exact same r (by rw [body]; simp [ha, hb, et])
        | some t =>
          cases es : b.buf.buffer index with
          | none => exact same r (by rw [body]; simp [ha, hb, es, et])
          | some s =>
            have ut := declared_use (List.mem_of_getLast? ha) (d a ha) et
            refine ⟨[.cmd _ [⟨t, Layout.transferSrc⟩]], by rw [body]; simp only [ha, hb, es, et]; rfl,
              ⟨⟨fun _ => rfl, ?_, ?_⟩, trivial⟩, rfl⟩
            · intro g hg
              exact plain_selects (hvw _ ut) (hg _ (by simp))
            · intro u hu
              simp only [List.mem_singleton] at hu
              subst hu
              exact ⟨ut, by simp⟩

def mSrc : View := ⟨30, ⟨2, 37, 1, 1, 64, 64, 1⟩, .d2, 37, ⟨Aspect.color, 0, 1, 0, 1⟩⟩
def mCopy0 : RunPass :=
  ⟨4, 1, false, ⟨Access.transferRead, Stage.transfer⟩,
    [ImageAdder.transferInput.attach 4 0 [mSrc], ImageAdder.transferOutput.attach 4 0 [mLevel 1]], [], [], fun _ r => r⟩
/-- An `ImageCopy` to the second level, leaving it to be sampled. -/
def mCopy : RunPass :=
  { mCopy0 with body := fun index r =>
      (Xfer.imageCopy ⟨false, fun _ => true⟩ mCopy0 ⟨32, 32, 1⟩ Layout.shaderReadOnly index r).getD r }

theorem mCopy_uses (index : Nat) : attachUses false index mCopy
    = [⟨mSrc, Layout.transferSrc⟩, ⟨mLevel 1, Layout.transferDst⟩] := rfl

theorem mCopy_transfers : Transfers false mCopy := by
  refine .imageCopy (fun _ => true) ⟨32, 32, 1⟩ Layout.shaderReadOnly (fun _ _ => rfl) ?_
  intro ab hab
  simp only [mCopy, mCopy0, pairs, List.mem_cons, List.not_mem_nil, or_false] at hab
  subst hab
  exact ⟨⟨by decide, by decide⟩, ⟨by decide, by decide⟩⟩

theorem mCopy_does (index : Nat) : BodyDoes false (fun _ => 37) mCopy index [⟨mLevel 1, Layout.shaderReadOnly⟩] := by
  intro r
  have := copy_steps (sepDS := false) (fmt := fun _ => 37) (p := mCopy) (fun _ => true) (size := ⟨32, 32, 1⟩)
    (final := Layout.shaderReadOnly) (index := index) (by
      intro u hu
      rw [mCopy_uses] at hu
      simp only [List.mem_cons, List.not_mem_nil, or_false] at hu
      rcases hu with rfl | rfl <;> exact ⟨rfl, by decide, by decide, by decide⟩) mCopy.images (fun _ h => h) (by
      simp only [mCopy, mCopy0, List.pairwise_cons, List.mem_cons, List.not_mem_nil, or_false, forall_eq, false_implies,
        implies_true, and_true, List.Pairwise.nil]
      intro v w hv hw
      cases Option.some.inj hv
      cases Option.some.inj hw
      exact Or.inl (by decide)) (by
      intro ab hab
      simp only [mCopy, mCopy0, pairs, List.mem_cons, List.not_mem_nil, or_false] at hab
      subst hab
      exact ⟨⟨by decide, by decide⟩, ⟨by decide, by decide⟩⟩) r [] (by simp)
  have eu : copyUses Layout.shaderReadOnly index mCopy.images = some [⟨mLevel 1, Layout.shaderReadOnly⟩] := rfl
  rw [eu] at this
  obtain ⟨steps, e1, e2, e3⟩ := this
  refine ⟨steps, ?_, e2, e3⟩
  show ((copyPairs ⟨false, fun _ => true⟩ ⟨32, 32, 1⟩ Layout.shaderReadOnly index mCopy.images r).getD r) = _
  rw [e1]
  rfl

end Verif.Run
