import Verif.Props.Transfer
import Verif.Props.Substitute
import Verif.Props.RenderPass
/-
C67: what the substitutes of disabled passes leave in the images.
-/
namespace Verif.Gpu
open Verif.Rec Verif.Att Verif.Run Verif.Xfer Verif.RPass

/-- A barrier for a view changes at most the contents of that view, and nothing of a known one. -/
theorem barrier_contents (env : Env) (r : Rec) (v : View) (i : Nat) (wn : LayoutState) (f : Bool) :
    ∃ bs, (r.viewBarrier env v i wn f).cmds = r.cmds ++ bs ∧ ∀ dev M, (steps dev M bs).buffer = M.buffer
      ∧ (∀ c, ¬ c.InView v → (steps dev M bs).image c = M.image c)
      ∧ (Known r.ctx v ∨ i ≠ Layout.undefined → steps dev M bs = M) := by
  have hk := fun dev => barrier_keeps_contents dev env r v i wn f
  revert hk
  unfold Rec.viewBarrier
  obtain ⟨src, -, ⟨-, e⟩ | ⟨-, e⟩⟩ := imageBarrier_cases env r v.image v.viewType v.range i wn f <;> rw [e] <;> intro hk
  · refine ⟨_, rfl, fun dev M => ⟨rfl, ?_, ?_⟩⟩
    · intro c hc
      simp only [steps, List.foldl_cons, List.foldl_nil, step, forget]
      rw [if_neg]
      rintro ⟨-, h1, h2⟩
      exact hc ⟨h1, (adaptRange_has _ _ _ _ _).1 h2.2⟩
    · intro h
      obtain ⟨bs, h1, h2⟩ := hk dev h
      rw [List.append_cancel_left h1]
      exact h2 M
  · exact ⟨[], by simp, fun dev M => ⟨rfl, fun _ _ => rfl, fun _ => rfl⟩⟩

theorem apart_inView {v w : View} {c : Cell} (h : View.Apart v w) (hv : c.InView v) : ¬ c.InView w := by
  rintro ⟨h1, h2⟩
  rcases h with h | h
  · exact h (hv.1.symm.trans h1)
  · exact h c.layer c.level ⟨hv.2, h2⟩

theorem inBox_first (v : View) (w h : Nat) (c : Cell) :
    c.InBox v.image.id (firstLayer v.range) 0 0 0 w h 1 ↔
      ∃ asp x y k, c = texel v asp 0 x y 0 k ∧ v.range.aspect.testBit asp = true ∧ Inside origin ⟨w, h, 1⟩ x y 0 := by
  obtain ⟨ci, ca, cl, cm, cx, cy, cz, ck⟩ := c
  unfold Cell.InBox Inside firstLayer texel origin
  constructor
  · rintro ⟨h1, h2, h3, h4, h5, h6, h7, h8, h9, h10, h11⟩
    simp only at *
    refine ⟨ca, cx, cy, ck, ?_, h2, by omega⟩
    rw [h1, h3, show cl = v.range.baseLayer + 0 by omega, show cz = 0 by omega]
  · rintro ⟨asp, x, y, k, e, h1, h2⟩
    simp only [Cell.mk.injEq] at e
    obtain ⟨rfl, rfl, rfl, rfl, rfl, rfl, rfl, rfl⟩ := e
    simp only at *
    exact ⟨trivial, h1, trivial, by omega, by omega, by omega⟩

theorem texel_inView {v : View} (hv : v.range.NonEmpty) {asp : Nat} {x y z : Int} {k : Nat} :
    (texel v asp 0 x y z k).InView v :=
  ⟨rfl, by have := hv.1; have := hv.2; unfold texel Range.Has; simp only; omega⟩

/-- What a copy action does to the contents. -/
theorem copy_contents (env : Env) (r : Rec) (src dst : View) (w h final : Nat) (hK : Known r.ctx src)
    (hA : View.Apart src dst) (hs : src.range.NonEmpty) (hd : dst.range.NonEmpty) (hp : HasParts dst) :
    ∃ cs, (r.doCopy env src dst w h final).cmds = r.cmds ++ cs ∧ ∀ dev M,
      (∀ asp x y k, dst.range.aspect.testBit asp = true → Inside origin ⟨w, h, 1⟩ x y 0 →
        (steps dev M cs).image (texel dst asp 0 x y 0 k) = M.image (texel src asp 0 x y 0 k))
      ∧ (∀ c, ¬ c.InView dst → (steps dev M cs).image c = M.image c)
      ∧ (Known r.ctx dst → ∀ c, ¬ Xfer.Covers dst origin ⟨w, h, 1⟩ c → (steps dev M cs).image c = M.image c)
      ∧ (steps dev M cs).buffer = M.buffer := by
  have hS : (makeLayoutState Layout.transferSrc).layout ≠ Layout.undefined := by simp [makeLayoutState]; decide
  have hT : (makeLayoutState Layout.transferDst).layout ≠ Layout.undefined := by simp [makeLayoutState]; decide
  unfold Rec.doCopy
  simp only
  obtain ⟨b1, e1, q1⟩ := barrier_contents env r src Layout.undefined (makeLayoutState Layout.transferSrc) false
  have k1 : Known r.ctx dst → Known (r.viewBarrier env src Layout.undefined (makeLayoutState Layout.transferSrc) false).ctx dst :=
    known_barrier _ _ _ _ hS
  generalize r.viewBarrier env src Layout.undefined (makeLayoutState Layout.transferSrc) false = r1 at e1 k1 ⊢
  obtain ⟨b2, e2, q2⟩ := barrier_contents env r1 dst Layout.undefined (makeLayoutState Layout.transferDst) false
  have k2 : Known (r1.viewBarrier env dst Layout.undefined (makeLayoutState Layout.transferDst) false).ctx dst :=
    barrier_known _ _ _ _ _ _ hT hp (Or.inr rfl)
  generalize r1.viewBarrier env dst Layout.undefined (makeLayoutState Layout.transferDst) false = r2 at e2 k2 ⊢
  generalize hc : Cmd.copyImage src.image.id Layout.transferSrc (firstLayer src.range)
    dst.image.id Layout.transferDst (firstLayer dst.range) w h 1 = cc
  obtain ⟨b3, e3, q3⟩ := finalBarrier_quiet env (r2.emit cc) dst final (fun _ => k2)
  refine ⟨b1 ++ (b2 ++ ([cc] ++ b3)), ?_, ?_⟩
  · rw [e3]
    simp only [Rec.emit, e2, e1, List.append_assoc]
  · intro dev M
    have h1 := (q1 dev M).2.2 (Or.inl hK)
    simp only [steps_append, q3, h1]
    obtain ⟨p1, p2, p3⟩ := q2 dev M
    generalize hM : steps dev M b2 = M' at p1 p2 p3 ⊢
    refine ⟨?_, ?_, ?_, ?_⟩
    · intro asp x y k ha hi
      subst hc
      simp only [steps, List.foldl_cons, List.foldl_nil, step]
      rw [if_pos ((inBox_first dst w h _).2 ⟨asp, x, y, k, rfl, ha, hi⟩)]
      rw [show ({ texel dst asp 0 x y 0 k with
          image := src.image.id,
          layer := (firstLayer src.range).baseLayer + ((texel dst asp 0 x y 0 k).layer - (firstLayer dst.range).baseLayer),
          level := (firstLayer src.range).baseMip } : Cell) = texel src asp 0 x y 0 k by simp [texel, firstLayer]]
      exact p2 _ (apart_inView hA (texel_inView hs))
    · intro c hcv
      subst hc
      simp only [steps, List.foldl_cons, List.foldl_nil, step]
      rw [if_neg, p2 c hcv]
      intro hb
      obtain ⟨asp, x, y, k, rfl, -, -⟩ := (inBox_first dst w h _).1 hb
      exact hcv (texel_inView hd)
    · intro hkd c hcov
      rw [p3 (Or.inl (k1 hkd))]
      subst hc
      simp only [steps, List.foldl_cons, List.foldl_nil, step]
      rw [if_neg]
      intro hb
      obtain ⟨asp, x, y, k, rfl, g1, g2⟩ := (inBox_first dst w h _).1 hb
      exact hcov ⟨asp, 0, x, y, 0, k, rfl, g1, hd.1, g2⟩
    · subst hc
      exact p1

/-- What a clear action does to the contents. -/
theorem clear_contents (env : Env) (r : Rec) (dst : View) (value final : Nat) (hp : HasParts dst) :
    ∃ cs, (r.doClear env dst value final).cmds = r.cmds ++ cs ∧ ∀ dev M,
      (∀ c, c.InView dst → dst.range.aspect.testBit c.aspect = true → (steps dev M cs).image c = dev.clear value c)
      ∧ (∀ c, ¬ c.InView dst → (steps dev M cs).image c = M.image c)
      ∧ (steps dev M cs).buffer = M.buffer := by
  have hT : (makeLayoutState Layout.transferDst).layout ≠ Layout.undefined := by simp [makeLayoutState]; decide
  unfold Rec.doClear
  simp only
  obtain ⟨b1, e1, q1⟩ := barrier_contents env r dst Layout.undefined (makeLayoutState Layout.transferDst) false
  have k1 : Known (r.viewBarrier env dst Layout.undefined (makeLayoutState Layout.transferDst) false).ctx dst :=
    barrier_known _ _ _ _ _ _ hT hp (Or.inr rfl)
  generalize r.viewBarrier env dst Layout.undefined (makeLayoutState Layout.transferDst) false = r1 at e1 k1 ⊢
  generalize hc : Cmd.clearImage (isColourFormat dst.format) dst.image.id Layout.transferDst dst.range value = cc
  obtain ⟨b3, e3, q3⟩ := finalBarrier_quiet env (r1.emit cc) dst final (fun _ => k1)
  refine ⟨b1 ++ ([cc] ++ b3), ?_, ?_⟩
  · rw [e3]
    simp only [Rec.emit, e1, List.append_assoc]
  · intro dev M
    simp only [steps_append, q3]
    obtain ⟨p1, p2, -⟩ := q1 dev M
    subst hc
    refine ⟨?_, ?_, p1⟩
    · intro c hcv ha
      simp only [steps, List.foldl_cons, List.foldl_nil, step]
      exact if_pos ⟨hcv.1, ha, hcv.2⟩
    · intro c hcv
      simp only [steps, List.foldl_cons, List.foldl_nil, step]
      rw [if_neg fun h => hcv ⟨h.1, h.2.2⟩]
      exact p2 c hcv

/-! ### C67 -/

/-- C67, copies (partial: the first layer and level only, see `substitute_copies_one_layer`; the source must be known to the
recording, see `substitute_copy_discards_source`). When the view `v` of a disabled pass is used and the oldest substitute
pending for it is a copy, the source's own substitute runs first, then every texel of the configured size, in the first layer
and level of the destination, holds what the source's held. Nothing outside the destination changes; nor, if a state of the
destination is known, does anything of it out of that size. -/
theorem substitute_copy_contents_partial (sepDS : Bool) (r : Rec) (v : View) (en : Nat → Bool) (pre post : List Implicit)
    (pass : Nat) (u src dst : View) (w h final : Nat)
    (hO : OldestFor v r.ctx.implicit pre ⟨pass, u, .copy src dst w h final⟩ post) (hen : en pass = false)
    (hA : View.Apart src dst) (hs : src.range.NonEmpty) (hd : dst.range.NonEmpty) (hp : HasParts dst) (r1 : Rec)
    (e1 : r1 = perform sepDS { r with ctx := { r.ctx with implicit := pre ++ post } } (.use src en))
    (hK : Known r1.ctx src) :
    ∃ cs, (perform sepDS r (.use v en)).cmds = r1.cmds ++ cs ∧ ∀ dev M,
      (∀ asp x y k, dst.range.aspect.testBit asp = true → Inside origin ⟨w, h, 1⟩ x y 0 →
        (steps dev M cs).image (texel dst asp 0 x y 0 k) = M.image (texel src asp 0 x y 0 k))
      ∧ (∀ c, ¬ c.InView dst → (steps dev M cs).image c = M.image c)
      ∧ (Known r1.ctx dst → ∀ c, ¬ Xfer.Covers dst origin ⟨w, h, 1⟩ c → (steps dev M cs).image c = M.image c)
      ∧ (steps dev M cs).buffer = M.buffer := by
  have e : perform sepDS r (.use v en) = r1.doCopy ⟨sepDS, en⟩ src dst w h final := by
    show Rec.runImplicit _ r v = _
    rw [runImplicit_some _ _ _ _ (oldest_find hO).1, (oldest_find hO).2, e1]
    simp [hen, perform]
  rw [e]
  exact copy_contents _ _ _ _ _ _ _ hK hA hs hd hp

/-- C67, copies from a source with nothing pending: what the substitute leaves is said in terms of the contents before the
use. -/
theorem substitute_copy_ready_partial (sepDS : Bool) (r : Rec) (v : View) (en : Nat → Bool) (pre post : List Implicit)
    (pass : Nat) (u src dst : View) (w h final : Nat)
    (hO : OldestFor v r.ctx.implicit pre ⟨pass, u, .copy src dst w h final⟩ post) (hen : en pass = false)
    (hA : View.Apart src dst) (hs : src.range.NonEmpty) (hd : dst.range.NonEmpty) (hp : HasParts dst)
    (hn : ∀ t ∈ pre ++ post, t.view.id ≠ src.id) (hK : Known r.ctx src) :
    ∃ cs, (perform sepDS r (.use v en)).cmds = r.cmds ++ cs ∧ ∀ dev M,
      (∀ asp x y k, dst.range.aspect.testBit asp = true → Inside origin ⟨w, h, 1⟩ x y 0 →
        (steps dev M cs).image (texel dst asp 0 x y 0 k) = M.image (texel src asp 0 x y 0 k))
      ∧ (∀ c, ¬ c.InView dst → (steps dev M cs).image c = M.image c)
      ∧ (Known r.ctx dst → ∀ c, ¬ Xfer.Covers dst origin ⟨w, h, 1⟩ c → (steps dev M cs).image c = M.image c)
      ∧ (steps dev M cs).buffer = M.buffer :=
  substitute_copy_contents_partial sepDS r v en pre post pass u src dst w h final hO hen hA hs hd hp
    { r with ctx := { r.ctx with implicit := pre ++ post } }
    (use_without_pending sepDS _ src en hn).symm hK

/-- C67, clears. When the view of a disabled pass is used and the oldest substitute pending for it is a clear, then all of the
view to clear, every layer, level and texel, holds the given clear value; nothing else changes. -/
theorem substitute_clear_contents (sepDS : Bool) (r : Rec) (v : View) (en : Nat → Bool) (pre post : List Implicit)
    (pass : Nat) (u dst : View) (value final : Nat)
    (hO : OldestFor v r.ctx.implicit pre ⟨pass, u, .clear dst value final⟩ post) (hen : en pass = false)
    (hp : HasParts dst) :
    ∃ cs, (perform sepDS r (.use v en)).cmds = r.cmds ++ cs ∧ ∀ dev M,
      (∀ c, c.InView dst → dst.range.aspect.testBit c.aspect = true → (steps dev M cs).image c = dev.clear value c)
      ∧ (∀ c, ¬ c.InView dst → (steps dev M cs).image c = M.image c)
      ∧ (steps dev M cs).buffer = M.buffer := by
  have e : perform sepDS r (.use v en)
      = Rec.doClear ⟨sepDS, en⟩ { r with ctx := { r.ctx with implicit := pre ++ post } } dst value final := by
    show Rec.runImplicit _ r v = _
    rw [runImplicit_some _ _ _ _ (oldest_find hO).1, (oldest_find hO).2]
    simp [hen]
  rw [e]
  exact clear_contents _ _ _ _ _ hp

/-- C67, blits. When the oldest substitute is a blit from a source with nothing pending, nothing outside the first slice of
the destination's first layer and level changes, nor outside the requested rectangle if it is at the origin, if a state of both images is known. (What a blit computes is the device's.) -/
theorem substitute_blit_contents_partial (sepDS : Bool) (r : Rec) (v : View) (en : Nat → Bool) (pre post : List Implicit)
    (pass : Nat) (u src dst : View) (sx sy : Int) (sw sh : Nat) (dx dy : Int) (dw dh filter final : Nat)
    (hO : OldestFor v r.ctx.implicit pre ⟨pass, u, .blit src dst sx sy sw sh dx dy dw dh filter final⟩ post) (hen : en pass = false)
    (hn : ∀ t ∈ pre ++ post, t.view.id ≠ src.id) (hK : Known r.ctx src) (hD : Known r.ctx dst) :
    ∃ cs, (perform sepDS r (.use v en)).cmds = r.cmds ++ cs ∧ ∀ dev M,
      (∀ c, ¬ (c.image = dst.image.id ∧ dst.range.aspect.testBit c.aspect = true ∧ c.layer = dst.range.baseLayer
        ∧ c.level = dst.range.baseMip ∧ c.z = 0 ∧ (dx = 0 ∧ dy = 0 → 0 ≤ c.x ∧ c.x < (dw : Int) ∧ 0 ≤ c.y ∧ c.y < (dh : Int))) →
        (steps dev M cs).image c = M.image c)
      ∧ (steps dev M cs).buffer = M.buffer := by
  have hS : (makeLayoutState Layout.transferSrc).layout ≠ Layout.undefined := by simp [makeLayoutState]; decide
  have hT : (makeLayoutState Layout.transferDst).layout ≠ Layout.undefined := by simp [makeLayoutState]; decide
  have e : perform sepDS r (.use v en)
      = Rec.doBlit ⟨sepDS, en⟩ { r with ctx := { r.ctx with implicit := pre ++ post } } src dst sx sy sw sh dx dy dw dh filter final := by
    have := use_without_pending sepDS { r with ctx := { r.ctx with implicit := pre ++ post } } src en hn
    unfold perform at this ⊢
    simp only at this ⊢
    rw [runImplicit_some _ _ _ _ (oldest_find hO).1, (oldest_find hO).2]
    simp only [hen, Bool.false_eq_true, if_false]
    rw [this]
  rw [e]
  unfold Rec.doBlit
  simp only
  have k0 : Known (Rec.ctx { r with ctx := { r.ctx with implicit := pre ++ post } }) src := hK
  have k0' : Known (Rec.ctx { r with ctx := { r.ctx with implicit := pre ++ post } }) dst := hD
  have e0 : (Rec.cmds { r with ctx := { r.ctx with implicit := pre ++ post } }) = r.cmds := rfl
  generalize ({ r with ctx := { r.ctx with implicit := pre ++ post } } : Rec) = r0 at k0 k0' e0 ⊢
  obtain ⟨b1, e1, q1⟩ := barrier_contents ⟨sepDS, en⟩ r0 src Layout.undefined (makeLayoutState Layout.transferSrc) false
  have k1 := known_barrier (env := ⟨sepDS, en⟩) src Layout.undefined (makeLayoutState Layout.transferSrc) false hS k0'
  generalize r0.viewBarrier ⟨sepDS, en⟩ src Layout.undefined (makeLayoutState Layout.transferSrc) false = r1 at e1 k1 ⊢
  obtain ⟨b2, e2, q2⟩ := barrier_contents ⟨sepDS, en⟩ r1 dst Layout.undefined (makeLayoutState Layout.transferDst) false
  have k2 := known_barrier (env := ⟨sepDS, en⟩) dst Layout.undefined (makeLayoutState Layout.transferDst) false hT k1
  generalize r1.viewBarrier ⟨sepDS, en⟩ dst Layout.undefined (makeLayoutState Layout.transferDst) false = r2 at e2 k2 ⊢
  obtain ⟨b3, e3, q3⟩ := finalBarrier_quiet ⟨sepDS, en⟩ (r2.emit (.blitImage src.image.id Layout.transferSrc
    (firstLayer src.range) ⟨sx, sy, 0, sw, sh, 1⟩ dst.image.id Layout.transferDst (firstLayer dst.range) ⟨dx, dy, 0, dw, dh, 1⟩ filter)) dst final
    (fun _ => k2)
  refine ⟨b1 ++ (b2 ++ ([_] ++ b3)), by rw [e3]; simp only [Rec.emit, e2, e1, e0, List.append_assoc]; rfl, ?_⟩
  intro dev M
  simp only [steps_append, q3, (q1 dev M).2.2 (Or.inl k0), (q2 dev M).2.2 (Or.inl k1)]
  refine ⟨?_, rfl⟩
  intro c hc
  simp only [steps, List.foldl_cons, List.foldl_nil, step]
  rw [if_neg]
  rintro ⟨g1, ⟨g2, g3⟩, g4⟩
  refine hc ⟨g1, g2, ?_⟩
  unfold firstLayer Range.Has at g3
  simp only at g3 g4
  omega

/-! ### Cases -/

def cSrc : View := ⟨11, ⟨1, 37, 1, 2, 4, 4, 1⟩, .d2, 37, ⟨Aspect.color, 0, 1, 0, 2⟩⟩
def cDst : View := ⟨12, ⟨2, 37, 1, 2, 4, 4, 1⟩, .d2, 37, ⟨Aspect.color, 0, 1, 0, 2⟩⟩
/-- A pass that writes the source image. -/
def cWriter : RunPass :=
  ⟨1, 1, true, ⟨Access.shaderRead, Stage.computeShader⟩, [ImageAdder.outputStorage.attach 1 0 [cSrc]], [], [],
    fun _ r => r.emit (.user 1)⟩
/-- A pass that turns it into another image, replaced by a copy when disabled. -/
def cFilter : RunPass :=
  ⟨2, 1, false, ⟨Access.shaderRead, Stage.fragmentShader⟩,
    [ImageAdder.sampled.attach 2 0 [cSrc], ImageAdder.outputStorage.attach 2 1 [cDst]], [],
    [(cDst, .copy cSrc cDst 4 4 Layout.shaderReadOnly)], fun _ r => r.emit (.user 2)⟩
/-- A pass that samples the result. -/
def cReader : RunPass :=
  ⟨3, 1, false, ⟨Access.shaderRead, Stage.fragmentShader⟩, [ImageAdder.sampled.attach 3 0 [cDst]], [], [],
    fun _ r => r.emit (.user 3)⟩

/-- The recording just before the reader, with the filter disabled. -/
def cBefore : Rec := ((frameOf xG [cWriter, cFilter] (fun i => i != 2)).map (·.2.recd)).getD ⟨Ctx.new, []⟩

/-- C67 meets its hypotheses when a graph runs: the disabled filter's image gets what the writer left in the source. -/
theorem example_substitute_copy : ∃ cs, (perform false cBefore (.use cDst fun i => i != 2)).cmds = cBefore.cmds ++ cs ∧
    ∀ dev M, (steps dev M cs).image (texel cDst 0 0 3 3 0 1) = M.image (texel cSrc 0 0 3 3 0 1) := by
  obtain ⟨cs, h1, h2⟩ := substitute_copy_ready_partial false cBefore cDst (fun i => i != 2) [] [] 2 cDst cSrc cDst 4 4
    Layout.shaderReadOnly ⟨by decide, by decide, by decide⟩ (by decide) (Or.inl (by decide)) (by decide) (by decide)
    ⟨0, 0, by decide⟩ (by decide) (by decide)
  refine ⟨cs, h1, fun dev M => (h2 dev M).1 0 3 3 1 (by decide) ?_⟩
  unfold Inside origin
  decide

/-- The clear of Ready.lean's writer, when it is disabled. -/
theorem example_substitute_clear : ∃ r cs, frameOf xG [xWriter] (fun i => i != 1) = some r ∧
    (perform false r.2.recd (.use xView fun i => i != 1)).cmds = r.2.recd.cmds ++ cs ∧
    ∀ dev M, (steps dev M cs).image (texel xView 0 0 63 63 0 1) = dev.clear 0 (texel xView 0 0 63 63 0 1) := by
  have h : ((frameOf xG [xWriter] (fun i => i != 1)).map fun x => x.2.recd.ctx.implicit)
      = some [⟨1, xView, .clear xView 0 Layout.shaderReadOnly⟩] := by decide
  obtain ⟨r, e, h⟩ := Option.map_eq_some_iff.1 h
  obtain ⟨cs, h1, h2⟩ := substitute_clear_contents false r.2.recd xView (fun i => i != 1) [] [] 1 xView xView 0
    Layout.shaderReadOnly ⟨h, rfl, by decide⟩ (by decide) ⟨0, 0, by decide⟩
  exact ⟨r, cs, e, h1, fun dev M => (h2 dev M).1 _ ⟨rfl, by decide⟩ (by decide)⟩

/-- A pending blit between two known images. -/
def cBlit : Rec :=
  ⟨{ Ctx.new with
      implicit := [⟨2, cDst, .blit cSrc cDst 0 0 4 4 0 0 4 4 1 Layout.shaderReadOnly⟩]
      images := (LayoutMap.empty.setState cSrc.image .d2 cSrc.range (makeLayoutState Layout.shaderReadOnly)).setState
        cDst.image .d2 cDst.range (makeLayoutState Layout.shaderReadOnly) }, []⟩

example : ∃ cs, (perform false cBlit (.use cDst fun i => i != 2)).cmds = cs ∧
    ∀ dev M, (steps dev M cs).image (texel cDst 0 1 3 3 0 1) = M.image (texel cDst 0 1 3 3 0 1) := by
  obtain ⟨cs, h1, h2⟩ := substitute_blit_contents_partial false cBlit cDst (fun i => i != 2) [] [] 2 cDst cSrc cDst 0 0 4 4
    0 0 4 4 1 Layout.shaderReadOnly ⟨by decide, by decide, by decide⟩ (by decide) (by decide) (by decide) (by decide)
  exact ⟨cs, h1, fun dev M => (h2 dev M).1 _ (by decide)⟩

/-- What the graph with the source as an input known to be SHADER_READ_ONLY records, the writer being in another graph. -/
def cG : GraphSt := { xG with inputs := LayoutMap.empty.setState cSrc.image .d2 cSrc.range (makeLayoutState Layout.shaderReadOnly) }

/-- C67 fails for a source no pass of the recording used before, even one the graph was told the layout of: the barrier is from
UNDEFINED, so the copy is of whatever the device leaves there. -/
theorem substitute_copy_discards_source : ∃ G' f, frameOf cG [cFilter, cReader] (fun i => i != 2) = some (G', f)
    ∧ ∀ dev M, dev.user = (fun _ M => M) →
      (steps dev M f.recd.cmds).image (texel cDst 0 0 3 3 0 1) = dev.junk (texel cSrc 0 0 3 3 0 1) := by
  have h : ((frameOf cG [cFilter, cReader] (fun i => i != 2)).map fun x => x.2.recd.cmds) = some
      [.imageBarrier 1 cSrc.range (makeLayoutState 0).state (makeLayoutState Layout.transferSrc).state 0 Layout.transferSrc,
       .imageBarrier 2 cDst.range (makeLayoutState 0).state (makeLayoutState Layout.transferDst).state 0 Layout.transferDst,
       .copyImage 1 Layout.transferSrc ⟨1, 0, 1, 0, 1⟩ 2 Layout.transferDst ⟨1, 0, 1, 0, 1⟩ 4 4 1,
       .imageBarrier 2 cDst.range (makeLayoutState Layout.transferDst).state (makeLayoutState Layout.shaderReadOnly).state
         Layout.transferDst Layout.shaderReadOnly,
       .user 3] := by
    decide
  obtain ⟨⟨G', f⟩, e, h⟩ := Option.map_eq_some_iff.1 h
  refine ⟨G', f, e, fun dev M hu => ?_⟩
  simp only at h
  rw [h]
  simp [steps, step, hu, forget, Discards, texel, cDst, cSrc, Cell.InBox, Selects, Range.Has, Layout.transferSrc,
    Layout.transferDst, Layout.undefined, Layout.shaderReadOnly, Aspect.color]

/-- C67 fails for the second layer of the views: nothing of it is copied. -/
theorem substitute_copies_one_layer : ∃ cs, (perform false cBefore (.use cDst fun i => i != 2)).cmds = cBefore.cmds ++ cs ∧
    ∀ dev M, (steps dev M cs).image (texel cDst 0 1 3 3 0 1) = dev.junk (texel cDst 0 1 3 3 0 1) := by
  have h : (perform false cBefore (.use cDst fun i => i != 2)).cmds = cBefore.cmds ++
      [.imageBarrier 1 cSrc.range (makeLayoutState Layout.general).state (makeLayoutState Layout.transferSrc).state
         Layout.general Layout.transferSrc,
       .imageBarrier 2 cDst.range (makeLayoutState 0).state (makeLayoutState Layout.transferDst).state 0 Layout.transferDst,
       .copyImage 1 Layout.transferSrc ⟨1, 0, 1, 0, 1⟩ 2 Layout.transferDst ⟨1, 0, 1, 0, 1⟩ 4 4 1,
       .imageBarrier 2 cDst.range (makeLayoutState Layout.transferDst).state (makeLayoutState Layout.shaderReadOnly).state
         Layout.transferDst Layout.shaderReadOnly] := by
    decide
  refine ⟨_, h, fun dev M => ?_⟩
  simp [steps, step, forget, Discards, texel, cDst, cSrc, Cell.InBox, Selects, Range.Has, Layout.transferSrc,
    Layout.transferDst, Layout.undefined, Layout.shaderReadOnly, Layout.general, Aspect.color]

end Verif.Gpu
