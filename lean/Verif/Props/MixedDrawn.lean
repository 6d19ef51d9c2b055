import Verif.Props.MixedDraw
/-
C92 for the passes that draw: the hypotheses are met by a graph that draws to each layer of an image, makes its mipmaps and
samples all of it; and what happens when only some of the parts are drawn.
-/
namespace Verif.Run
open Verif.Rec Verif.Att Verif.Gpu Verif.RPass

/-! ### Checking orderliness of concrete uses -/

def cellsOf (r : Range) : List (Nat × Nat) :=
  (List.range r.layers).flatMap fun l => (List.range r.levels).map fun m => (r.baseLayer + l, r.baseMip + m)

theorem mem_cellsOf {r : Range} {l m : Nat} (h : r.Has l m) : (l, m) ∈ cellsOf r := by
  unfold Range.Has at h
  unfold cellsOf
  rw [List.mem_flatMap]
  refine ⟨l - r.baseLayer, by rw [List.mem_range]; omega, List.mem_map.2 ⟨m - r.baseMip, by rw [List.mem_range]; omega, ?_⟩⟩
  rw [Nat.add_sub_cancel' (by omega), Nat.add_sub_cancel' (by omega)]

def untouchedB (h : Left) (v : View) : Bool := (cellsOf v.range).all fun c => h v.image.id c.1 c.2 == none

def settledB (h : Left) (v : View) : Bool :=
  untouchedB h v || (List.range 20).any fun x => x != Layout.undefined
    && (cellsOf v.range).all fun c => h v.image.id c.1 c.2 == some x

theorem settled_of {h : Left} {v : View} (hb : settledB h v = true) : h.Settled v := by
  unfold settledB at hb
  rcases Bool.or_eq_true_iff.1 hb with hb | hb
  · left
    intro l m hl
    have := List.all_eq_true.1 hb _ (mem_cellsOf hl)
    simpa using this
  · right
    obtain ⟨x, -, hx⟩ := List.any_eq_true.1 hb
    obtain ⟨h1, h2⟩ := Bool.and_eq_true_iff.1 hx
    refine ⟨x, by simpa using h1, ?_⟩
    intro l m hl
    have := List.all_eq_true.1 h2 _ (mem_cellsOf hl)
    simpa using this

def orderlyB (inputs kept : Left) : Left → List ViewUse → Bool
  | _, [] => true
  | h, u :: us => settledB h u.view && settledB inputs u.view && settledB kept u.view && orderlyB inputs kept (h.after u) us

theorem orderly_of {i k : Left} : ∀ {us : List ViewUse} {h : Left}, orderlyB i k h us = true → Orderly i k h us
  | [], _, _ => trivial
  | u :: us, h, hb => by
    unfold orderlyB at hb
    simp only [Bool.and_eq_true] at hb
    exact ⟨settled_of hb.1.1.1, fun _ => ⟨settled_of hb.1.1.2, settled_of hb.1.2⟩, orderly_of hb.2⟩

/-- The other direction of `enters_of`. -/
theorem entered_of {env : Env} {G : GraphSt} {index : Nat → Nat} : ∀ {ps : List RunPass} {f : Frame} {q : RunPass} {r : Rec},
    Enters env G index ps f q r → ∃ k : Nat, ps[k]? = some q ∧ enteredRec env G index ps f k = some r := by
  intro ps
  induction ps with
  | nil => intro f q r h; exact absurd h (by simp [Enters])
  | cons p next ih =>
    rintro f q r (⟨rfl, hen, e⟩ | ⟨f', e, h⟩)
    · refine ⟨0, rfl, ?_⟩
      unfold enteredRec
      simp only
      rw [if_pos hen]
      exact e
    · obtain ⟨k, h1, h2⟩ := ih h
      refine ⟨k + 1, by simpa using h1, ?_⟩
      unfold enteredRec
      simp only
      rw [e]
      exact h2

/-! ### The graph -/

def dImg : Image := ⟨1, 37, 2, 2, 64, 64, 1⟩
def dLayer (k : Nat) : View := ⟨11 + k, dImg, .d2, 37, ⟨Aspect.color, 0, 1, k, 1⟩⟩
def dTop : View := ⟨13, dImg, .d2Array, 37, ⟨Aspect.color, 0, 1, 0, 2⟩⟩
def dWhole : View := ⟨14, dImg, .d2Array, 37, ⟨Aspect.color, 0, 2, 0, 2⟩⟩
/-- A pass drawing to one layer. -/
def dDraw (k : Nat) : RunPass := drawPass (1 + k) [ImageAdder.outputColour.attach (1 + k) 0 [dLayer k]]
/-- The pass making the mipmaps of both layers. -/
def dMips0 : RunPass :=
  ⟨3, 1, false, ⟨Access.transferWrite, Stage.transfer⟩, [(ImageAdder.transferInOut 0).attach 3 0 [dTop]], [], [], fun _ r => r⟩
def dMips (G : GraphSt) : RunPass :=
  { dMips0 with body := fun _ r =>
      Mip.generateMipmaps ⟨false, fun _ => true⟩ G dMips0 (makeLayoutState Layout.shaderReadOnly) dTop .d2Array r }
theorem generate_body (env : Env) (G : GraphSt) (p : RunPass) (body : Nat → Rec → Rec) (o : LayoutState) (v : View)
    (ty : ViewType) (r : Rec) :
    Mip.generateMipmaps env G { p with body := body } o v ty r = Mip.generateMipmaps env G p o v ty r := rfl

theorem dMips_body (G : GraphSt) (index : Nat) (r : Rec) : (dMips G).body index r
    = Mip.generateMipmaps ⟨false, fun _ => true⟩ G (dMips G) (makeLayoutState Layout.shaderReadOnly) dTop .d2Array r := by
  unfold dMips
  rw [generate_body]

/-- The pass sampling all layers and levels. -/
def dRead : RunPass := { drawPass 4 [ImageAdder.sampled.attach 4 0 [dWhole]] with body := fun _ r => r.emit (.work 4) }
/-- The passes of a frame, given the objects the drawing passes have. -/
def dPasses (G : GraphSt) (o0 o1 : Option PassObj) : List RunPass :=
  [RunPass.drawing false G (dDraw 0) o0 [0], RunPass.drawing false G (dDraw 1) o1 [1], dMips G, dRead]

/-- What the bodies use. -/
def dBody (p : RunPass) : List ViewUse :=
  if p.id = 1 then [⟨dLayer 0, Layout.transferDst⟩]
  else if p.id = 2 then [⟨dLayer 1, Layout.transferDst⟩]
  else if p.id = 3 then (List.range' 0 2).flatMap fun layer => Mip.levelUses dTop layer Layout.shaderReadOnly 2
  else []

theorem dLayer_plain (k : Nat) : PlainView false (fun _ => 37) (dLayer k) :=
  ⟨rfl, show ViewType.d2 ≠ .d3 by decide, show WholeAspect false 37 Aspect.color by decide,
    by simp [dLayer, Range.NonEmpty]⟩

theorem d_run (G : GraphSt) (o0 o1 : Option PassObj) :
    MixedRun false (fun _ => 37) (fun _ => true) (fun _ => 0) (dPasses G o0 o1) dBody := by
  refine ⟨?_, ?_, ?_⟩
  · intro p hp u hu
    simp only [dPasses, List.mem_cons, List.not_mem_nil, or_false] at hp
    rcases hp with rfl | rfl | rfl | rfl
    · change u ∈ [(⟨dLayer 0, Layout.transferDst⟩ : ViewUse)] at hu
      simp only [List.mem_singleton] at hu
      subst hu
      exact ⟨dLayer_plain 0, show Layout.transferDst ≠ Layout.undefined by decide⟩
    · change u ∈ [(⟨dLayer 1, Layout.transferDst⟩ : ViewUse)] at hu
      simp only [List.mem_singleton] at hu
      subst hu
      exact ⟨dLayer_plain 1, show Layout.transferDst ≠ Layout.undefined by decide⟩
    · change u ∈ [(⟨dTop, Layout.transferDst⟩ : ViewUse), ⟨Mip.levelView dTop 0 0, Layout.shaderReadOnly⟩,
        ⟨Mip.levelView dTop 0 1, Layout.shaderReadOnly⟩, ⟨Mip.levelView dTop 1 0, Layout.shaderReadOnly⟩,
        ⟨Mip.levelView dTop 1 1, Layout.shaderReadOnly⟩] at hu
      simp only [List.mem_cons, List.not_mem_nil, or_false] at hu
      rcases hu with rfl | rfl | rfl | rfl | rfl <;>
        exact ⟨⟨rfl, by decide, by decide, by decide⟩, by decide⟩
    · change u ∈ [(⟨dWhole, Layout.shaderReadOnly⟩ : ViewUse)] at hu
      simp only [List.mem_singleton] at hu
      subst hu
      exact ⟨⟨rfl, by decide, by decide, by decide⟩, by decide⟩
  · intro p hp
    simp only [dPasses, List.mem_cons, List.not_mem_nil, or_false] at hp
    rcases hp with rfl | rfl | rfl | rfl <;> rfl
  · intro p hp u hu w hw
    right
    simp only [dPasses, List.mem_cons, List.not_mem_nil, or_false] at hp
    rcases hp with rfl | rfl | rfl | rfl
    · change u ∈ ([] : List ViewUse) at hu; simp at hu
    · change u ∈ ([] : List ViewUse) at hu; simp at hu
    · change u ∈ [(⟨dTop, Layout.transferDst⟩ : ViewUse)] at hu
      change w ∈ [(⟨dTop, Layout.transferDst⟩ : ViewUse)] at hw
      rw [List.mem_singleton.1 hu, List.mem_singleton.1 hw]
    · change u ∈ [(⟨dWhole, Layout.shaderReadOnly⟩ : ViewUse)] at hu
      change w ∈ [(⟨dWhole, Layout.shaderReadOnly⟩ : ViewUse)] at hw
      rw [List.mem_singleton.1 hu, List.mem_singleton.1 hw]

theorem dDraw_attach {k : Nat} (hk : k = 0 ∨ k = 1) :
    (ImageAdder.outputColour.attach (1 + k) 0 [dLayer k]).getImageLayout false ≠ Layout.undefined
    ∧ (ImageAdder.outputColour.attach (1 + k) 0 [dLayer k]).img.views = [dLayer k]
    ∧ (ImageAdder.outputColour.attach (1 + k) 0 [dLayer k]).img.stencilLoadOp ≠ LoadOp.load := by
  rcases hk with rfl | rfl <;> decide

theorem dDraw_declares {k : Nat} (hk : k = 0 ∨ k = 1) (body : Nat → Rec → Rec) : Declares false { dDraw k with body := body } := by
  intro a ha
  simp only [dDraw, drawPass, List.mem_singleton] at ha
  subst ha
  obtain ⟨h1, h2, -⟩ := dDraw_attach hk
  refine ⟨h1, ?_⟩
  intro v hv
  rw [h2, List.mem_singleton] at hv
  subst hv
  exact ⟨(dLayer k).range, ⟨⟨rfl, rfl⟩, fun h => absurd h (show ViewType.d2 ≠ .d3 by decide), fun _ => ⟨rfl, rfl⟩⟩,
    (dLayer_plain k).some⟩

/-- In a first frame, without objects: what each body does is what `dBody` says. -/
theorem d_bodies (q : RunPass) (r : Rec)
    (he : Enters ⟨false, fun _ => true⟩ xG (fun _ => 0) (dPasses xG none none) (frame0 (dPasses xG none none)) q r) :
    BodyUses false (fun _ => 37) xG q 0 r (dBody q) := by
  obtain ⟨k, hk, e⟩ := entered_of he
  have draws : ∀ j : Nat, (j = 0 ∨ j = 1) →
      enteredRec ⟨false, fun _ => true⟩ xG (fun _ => 0) (dPasses xG none none) (frame0 (dPasses xG none none)) j = some r →
      ∃ o r', recordPass false xG 64 64 (dDraw j) none [j] 0 r = some (o, r')
        ∧ drawUses o = [⟨dLayer j, Layout.transferDst⟩] := by
    intro j hj er
    have hd : (enteredRec ⟨false, fun _ => true⟩ xG (fun _ => 0) (dPasses xG none none) (frame0 (dPasses xG none none)) j).map
        (fun r => (recordPass false xG 64 64 (dDraw j) none [j] 0 r).map fun x => drawUses x.1)
        = some (some [⟨dLayer j, Layout.transferDst⟩]) := by
      rcases hj with rfl | rfl <;> decide +kernel
    rw [er] at hd
    simp only [Option.map_some, Option.some.injEq] at hd
    obtain ⟨⟨o, r'⟩, h1, h2⟩ := Option.map_eq_some_iff.1 hd
    exact ⟨o, r', h1, h2⟩
  have stencil : ∀ (j : Nat), (j = 0 ∨ j = 1) → ∀ (c : Ctx) (body : Nat → Rec → Rec), StencilKnown xG c { dDraw j with body := body } 0 none := by
    intro j hj c body a ha _ hs
    simp only [dDraw, drawPass, List.mem_singleton] at ha
    subst ha
    exact absurd hs (dDraw_attach hj).2.2
  have single : ∀ (j : Nat) (body : Nat → Rec → Rec), TargetsApart { dDraw j with body := body } 0 := by
    intro j body
    simp [TargetsApart, dDraw, drawPass]
  match k, hk, e with
  | 0, hk, e =>
    simp only [dPasses, List.getElem?_cons_zero, Option.some.injEq] at hk
    subst hk
    obtain ⟨o, r', h1, h2⟩ := draws 0 (Or.inl rfl) e
    have : dBody (RunPass.drawing false xG (dDraw 0) none [0]) = drawUses o := h2.symm
    rw [this]
    refine .draws (width := 64) (height := 64) (cached := none) (draw := [0]) (r' := r') h1 ?_ (dDraw_declares (Or.inl rfl) _) (single 0 _)
      (fun q hq => absurd hq (by simp)) (stencil 0 (Or.inl rfl) _ _)
    show ((recordPass false xG 64 64 (dDraw 0) none [0] 0 r).map (·.2)).getD r = r'
    rw [h1]; rfl
  | 1, hk, e =>
    simp only [dPasses, List.getElem?_cons_succ, List.getElem?_cons_zero, Option.some.injEq] at hk
    subst hk
    obtain ⟨o, r', h1, h2⟩ := draws 1 (Or.inr rfl) e
    have : dBody (RunPass.drawing false xG (dDraw 1) none [1]) = drawUses o := h2.symm
    rw [this]
    refine .draws (width := 64) (height := 64) (cached := none) (draw := [1]) (r' := r') h1 ?_ (dDraw_declares (Or.inr rfl) _) (single 1 _)
      (fun q hq => absurd hq (by simp)) (stencil 1 (Or.inr rfl) _ _)
    show ((recordPass false xG 64 64 (dDraw 1) none [1] 0 r).map (·.2)).getD r = r'
    rw [h1]; rfl
  | 2, hk, e =>
    simp only [dPasses, List.getElem?_cons_succ, List.getElem?_cons_zero, Option.some.injEq] at hk
    subst hk
    have hd : (enteredRec ⟨false, fun _ => true⟩ xG (fun _ => 0) (dPasses xG none none) (frame0 (dPasses xG none none)) 2).map
        (fun r => (getNextLayoutState false xG r.ctx (dMips xG) dTop).layout) = some Layout.shaderReadOnly := by decide +kernel
    rw [e] at hd
    simp only [Option.map_some, Option.some.injEq] at hd
    have hm := BodyUses.mipmaps (sepDS := false) (fmt := fun _ => 37) (G := xG) (p := dMips xG) (index := 0) (r := r)
      (v := dTop) (ty := .d2Array) (en := fun _ => true) (output := makeLayoutState Layout.shaderReadOnly)
      (dMips_body xG 0 r) (by decide) (by decide)
    rw [hd] at hm
    exact hm
  | 3, hk, e =>
    simp only [dPasses, List.getElem?_cons_succ, List.getElem?_cons_zero, Option.some.injEq] at hk
    subst hk
    exact .does fun r => ⟨[.cmd (.work 4) []], rfl, ⟨⟨fun _ => rfl, fun _ _ => trivial, by simp⟩, trivial⟩, rfl⟩
  | k + 4, hk, e => simp [dPasses] at hk

/-- Every use of the graph finds its view settled. -/
theorem d_orderly : Orderly (leftIn xG.inputs) (leftIn xG.final.images) (leftIn (startCtx []).images)
    (graphUses false (fun _ => true) (fun _ => 0) (fun p _ => dBody p) (dPasses xG none none)) :=
  orderly_of (by decide +kernel)

/-- Both layers are drawn apart, the mipmaps of both are made, then all of the image is sampled: a first frame meets the
hypotheses of the theorems, is recorded, and is valid whatever layout the image was in. -/
theorem example_parts_drawn (g : Layouts) :
    ∃ G' f, record ⟨false, fun _ => true⟩ xG [] (fun _ => 0) (dPasses xG none none) (fun _ _ => false) [] = some (G', f)
    ∧ StreamValid g f.recd.cmds ∧ f.recd.cmds.length = 17
    ∧ (∀ l m, dWhole.range.Has l m → execAll g f.recd.cmds 1 0 l m = Layout.shaderReadOnly) := by
  have h : (record ⟨false, fun _ => true⟩ xG [] (fun _ => 0) (dPasses xG none none) (fun _ _ => false) []).map
      (fun x => x.2.recd.cmds.length) = some 17 := by decide +kernel
  obtain ⟨⟨G', f⟩, e, hl⟩ := Option.map_eq_some_iff.1 h
  obtain ⟨h1, -, h3, -⟩ := parts_drawn_valid_partial (g0 := g) (d_run xG none none) [] (by
    intro i a l m s _ hk
    have : known (startCtx []) xG i l m = none := rfl
    rw [this] at hk; simp at hk) d_orderly _ [] d_bodies G' f e
  refine ⟨G', f, e, h1, hl, ?_⟩
  intro l m hlm
  refine h3 1 0 l m _ (by unfold HasAspect; decide) ?_
  have := mem_cellsOf hlm
  simp [cellsOf, dWhole, List.range, List.range.loop] at this
  rcases this with ⟨rfl, rfl⟩ | ⟨rfl, rfl⟩ | ⟨rfl, rfl⟩ | ⟨rfl, rfl⟩ <;> decide +kernel

end Verif.Run
