import Verif.Spec.Library
import Verif.Props.RenderPass
import Verif.Props.Transfer
import Verif.Props.Mipmaps
/-
C64, C65: graphs of all the kinds of passes the library provides.
-/
namespace Verif.Lib
open Verif.Rec Verif.Att Verif.Run Verif.Gpu Verif.Mip Verif.RPass

variable {sepDS : Bool} {fmt : Nat → Nat} {V : View → Prop} {passes : List RunPass} {g0 : Layouts} {G : GraphSt}

theorem imageBarrier_implicit (env : Env) (r : Rec) (img : Image) (ty : ViewType) (rg : Range) (i : Nat) (w : LayoutState)
    (f : Bool) : (r.imageBarrier env img ty rg i w f).ctx.implicit = r.ctx.implicit :=
  (viewBarrier_keeps env r ⟨0, img, ty, 0, rg⟩ i w f 0).1

theorem levelStep_implicit (env : Env) (img : Image) (ty : ViewType) (next : LayoutState) (layer : Nat) (r : Rec) (l : Nat) :
    (levelStep env img ty next layer r l).ctx.implicit = r.ctx.implicit := by
  unfold levelStep
  simp only
  split <;> simp only [imageBarrier_implicit, Rec.emit]

theorem foldl_implicit {α : Type} (f : Rec → α → Rec) (h : ∀ r a, (f r a).ctx.implicit = r.ctx.implicit) :
    ∀ (l : List α) (r : Rec), (l.foldl f r).ctx.implicit = r.ctx.implicit
  | [], _ => rfl
  | a :: l, r => by rw [List.foldl_cons, foldl_implicit f h l, h]

theorem generate_implicit (env : Env) (S : GraphSt) (v : View) (ty : ViewType) (next : LayoutState) (r : Rec) :
    (generate env S v ty next r).ctx.implicit = r.ctx.implicit := by
  unfold generate
  refine foldl_implicit _ (fun r layer => ?_) _ _
  unfold layerStep
  simp only
  rw [foldl_implicit _ (fun r l => levelStep_implicit _ _ _ _ _ r l), imageBarrier_implicit]
  exact (current_other _ _ _).1

theorem has_cells {v : View} (h0 : v.range.baseMip = 0) (hl : v.range.levels = v.image.mipLevels) (l m : Nat) :
    v.range.Has l m ↔ Cells v v.image.id l m := by
  unfold Range.Has Cells
  rw [h0, hl]
  omega

/-- Mipmap generation keeps the invariant. -/
theorem inv_generate (hT : TidyViews sepDS fmt V passes) (en : Nat → Bool) {r : Rec} (h : Inv sepDS fmt V passes g0 G r)
    {v : View} (hv : V v) (hne : v.range.NonEmpty) (hm0 : v.range.baseMip = 0) (hml : v.range.levels = v.image.mipLevels)
    (hm : 2 ≤ v.image.mipLevels) (htr : ∀ l m, v.range.Has l m → r.ctx.images.at v.image.id l m ≠ none) {ty : ViewType}
    (ht : ty ≠ .d3) {next : LayoutState} (hn : next.layout ≠ Layout.undefined) (hns : next.layout ≠ Layout.transferSrc)
    (hnd : next.layout ≠ Layout.transferDst) : Inv sepDS fmt V passes g0 G (generate ⟨sepDS, en⟩ G v ty next r) := by
  have hg : Mip.Good fmt g0 (Cells v) r := by
    refine ⟨h.good.mirrors, h.good.valid, ?_⟩
    rintro i l m s ⟨rfl, hc⟩ hs
    rcases h.good.uniform v hv with hu | ⟨s', hu, hs'⟩
    · have := hu l m ((has_cells hm0 hml l m).2 ⟨rfl, hc⟩)
      simp only at this
      rw [hs] at this
      simp at this
    · have := hu l m ((has_cells hm0 hml l m).2 ⟨rfl, hc⟩)
      simp only at this
      rw [hs] at this
      cases this
      exact hs'
  have key := layers_ok (env := ⟨sepDS, en⟩) (S := G) (next := next) (hT.tidy.format v hv) ht (hT.tidy.view v hv) hn hm
    v.range.layers v.range.baseLayer r hg (fun layer m h1 h2 h3 => ⟨rfl, h1, h2, h3⟩)
    (fun layer h1 h2 => htr layer 0 ((has_cells hm0 hml _ _).2 ⟨rfl, h1, h2, by omega⟩))
  simp only at key
  change Mip.Good fmt g0 (Cells v) (generate ⟨sepDS, en⟩ G v ty next r) ∧ _ at key
  have hi := generate_implicit ⟨sepDS, en⟩ G v ty next r
  generalize hr' : generate ⟨sepDS, en⟩ G v ty next r = r' at key hi ⊢
  rw [show (List.range' v.range.baseLayer v.range.layers).foldl (layerStep ⟨sepDS, en⟩ G v ty next) r = r' from hr'] at key
  obtain ⟨g', k1, k2, -⟩ := key
  have hin : ∀ l m, v.range.Has l m → r'.ctx.images.at v.image.id l m = some next := by
    intro l m hl
    obtain ⟨-, c1, c2, c3⟩ := (has_cells hm0 hml l m).1 hl
    obtain ⟨t, t1, -, t3⟩ := k1 l m c1 c2 c3
    rw [t1, t3 hns hnd]
  have hout : ∀ i l m, ¬ (i = v.image.id ∧ v.range.Has l m) → r'.ctx.images.at i l m = r.ctx.images.at i l m := by
    intro i l m hx
    refine k2 i l m fun hc => hx ⟨hc.1, ?_⟩
    exact (has_cells hm0 hml l m).2 ⟨rfl, hc.2⟩
  have hmono : Mono r r' := by
    intro i l m hx
    by_cases hc : i = v.image.id ∧ v.range.Has l m
    · obtain ⟨rfl, hc⟩ := hc
      rw [hin l m hc] at hx
      simp at hx
    · rwa [hout i l m hc] at hx
  refine ⟨⟨g'.mirrors, g'.valid, ?_, ?_⟩, honest_mono hmono h.honest, ?_⟩
  · intro w hw
    rcases hT.tidy.apart v w hv hw with ha | ⟨e1, e2⟩
    · have same : ∀ l m, w.range.Has l m → r'.ctx.images.at w.image.id l m = r.ctx.images.at w.image.id l m := by
        intro l m hl
        refine hout _ _ _ fun hc => ?_
        rcases ha with ha | ha
        · exact ha hc.1.symm
        · exact ha l m ⟨hc.2, hl⟩
      rcases h.good.uniform w hw with hu | ⟨s, hu, hs⟩
      · exact Or.inl fun l m hl => (same l m hl).trans (hu l m hl)
      · exact Or.inr ⟨s, fun l m hl => (same l m hl).trans (hu l m hl), hs⟩
    · refine Or.inr ⟨next, fun l m hl => ?_, hn⟩
      have := hin l m ((e2 l m).2 hl)
      rw [e1] at this
      exact this
  · rw [hi]; exact h.good.pending
  · rw [hi]; exact h.pending

/-- The body of a pass of any kind keeps the invariant. -/
theorem inv_kind (hT : TidyViews sepDS fmt V passes) (cached : Nat → Nat → Option PassObj) (index : Nat → Nat)
    (hin : ∀ v, V v → Whole G.inputs v) (hfin : ∀ v, V v → Whole G.final.images v) {p : RunPass} (hp : p ∈ passes)
    (hk : Kind sepDS G V passes (cached p.id) p)
    (hmade : ∀ o, cached p.id (index p.id) = some o → MadeFor sepDS p (index p.id) o) {r : Rec}
    (hfits : Renders sepDS G p (cached p.id) → (∀ o, cached p.id (index p.id) = some o → Fits G r.ctx o)
      ∧ StencilKnown G r.ctx p (index p.id) (cached p.id (index p.id)))
    (hann : (∃ ty output, MakesMipmaps sepDS G p ty output) → Announces sepDS G p (index p.id) r)
    (h : Inv sepDS fmt V passes g0 G r) (hr : ImagesReady sepDS fmt g0 p (index p.id) r) :
    Inv sepDS fmt V passes g0 G (p.body (index p.id) r) := by
  cases hk with
  | draws hR hD =>
    obtain ⟨f1, f2⟩ := hfits hR
    obtain ⟨w, ht, draw, hb⟩ := hR
    rw [hb]
    cases e1 : recordPass sepDS G w ht p (cached p.id (index p.id)) draw (index p.id) r with
    | none => exact h
    | some x =>
      obtain ⟨o, r'⟩ := x
      obtain ⟨ts, -, -, -, -, hI, -⟩ := render_instance_partial hT hin hfin hp hD h
        (fun o ho => ⟨hmade o ho, f1 o ho⟩) f2 e1
      exact hI
  | transfers hX => exact Xfer.inv_transfers hT hp hX h hr
  | mipmaps ty output hM =>
    obtain ⟨en, hb⟩ := hM.body (index p.id) r
    rw [hb]
    have ha' := hann ⟨ty, output, hM⟩
    split
    · rename_i a ha
      split
      · rename_i v hv
        obtain ⟨d1, d2⟩ := hM.declared a ha
        obtain ⟨d3, d4, d5⟩ := d2 v (view_mem hv)
        obtain ⟨vV, vN⟩ := hT.attached v ⟨p, hp, a, List.mem_of_mem_head? ha, view_mem hv⟩
        obtain ⟨n1, n2, n3⟩ := ha' a ha v hv
        exact inv_generate hT en h vV vN d3 d4 d5 (hr a (List.mem_of_mem_head? ha) d1 v hv).2 hM.kind n1 n2 n3
      · exact h
    · exact h
  | uses hb =>
    obtain ⟨calls, hc, eb⟩ := hb (index p.id) r
    rw [eb]
    exact inv_perform hT h calls hc

/-- What has to hold when the bodies are entered: the render pass objects that may be used again fit, and the layouts
announced to mipmap generation are not transfer layouts. -/
def EntersWell (sepDS : Bool) (G : GraphSt) (en : Nat → Bool) (index : Nat → Nat) (passes : List RunPass) (f : Frame)
    (cached : Nat → Nat → Option PassObj) : Prop :=
  ∀ p r, Enters ⟨sepDS, en⟩ G index passes f p r →
    (Renders sepDS G p (cached p.id) → (∀ o, cached p.id (index p.id) = some o → Fits G r.ctx o)
      ∧ StencilKnown G r.ctx p (index p.id) (cached p.id (index p.id)))
    ∧ ((∃ ty output, MakesMipmaps sepDS G p ty output) → Announces sepDS G p (index p.id) r)

theorem bodies_keep (hT : TidyViews sepDS fmt V passes) (cached : Nat → Nat → Option PassObj)
    (hkind : ∀ p ∈ passes, Kind sepDS G V passes (cached p.id) p) (en : Nat → Bool) (index : Nat → Nat)
    (deps : List Ctx) (hH : Honest fmt V g0 (startCtx deps) G) (ini : Nat → Nat → Bool) (log : List Event)
    (hmade : ∀ p ∈ passes, ∀ o, cached p.id (index p.id) = some o → MadeFor sepDS p (index p.id) o)
    (hwell : EntersWell sepDS G en index passes (frameStart sepDS deps passes ini log) cached) :
    BodiesKeep sepDS fmt V passes g0 G en index passes (frameStart sepDS deps passes ini log) := by
  intro p r he h hr
  have hp := enters_mem he
  exact inv_kind hT cached index hH.inputs hH.final hp (hkind p hp) (hmade p hp) (hwell p r he).1 (hwell p r he).2 h hr

/-- C64 (partial: tidy views, and `EntersWell`). A frame of a graph of passes of the library — drawing, copying or
blitting images and buffers, making mipmaps, or any pass that only uses the recording context — records a valid stream, and
what the graph remembers afterwards is true. -/
theorem library_graph_valid_partial (hT : TidyViews sepDS fmt V passes) (cached : Nat → Nat → Option PassObj)
    (hkind : ∀ p ∈ passes, Kind sepDS G V passes (cached p.id) p) (en : Nat → Bool) (index : Nat → Nat)
    (deps : List Ctx) (hH : Honest fmt V g0 (startCtx deps) G) (ini : Nat → Nat → Bool) (log : List Event)
    (hmade : ∀ p ∈ passes, ∀ o, cached p.id (index p.id) = some o → MadeFor sepDS p (index p.id) o)
    (hwell : EntersWell sepDS G en index passes (frameStart sepDS deps passes ini log) cached)
    (G' : GraphSt) (f : Frame) (e : record ⟨sepDS, en⟩ G deps index passes ini log = some (G', f)) :
    StreamValid g0 f.recd.cmds
    ∧ (∀ i a l m s, HasAspect (fmt i) a → G'.final.images.at i l m = some s →
        execAll g0 f.recd.cmds i a l m = s.layout)
    ∧ (∀ v, V v → Whole G'.final.images v) ∧ G'.inputs = G.inputs :=
  valid_of_bodies hT en index deps hH ini log (bodies_keep hT cached hkind en index deps hH ini log hmade hwell) G' f e

/-- C65 (partial: tidy views and `EntersWell`). Whenever an image copy pass of such a graph records, its sources are left in
TRANSFER_SRC_OPTIMAL and its destinations in the final layout given to the pass (TRANSFER_DST_OPTIMAL if none). -/
theorem image_copy_final_layout_partial (hT : TidyViews sepDS fmt V passes) (cached : Nat → Nat → Option PassObj)
    (hkind : ∀ p ∈ passes, Kind sepDS G V passes (cached p.id) p) (en : Nat → Bool) (index : Nat → Nat)
    (deps : List Ctx) (hH : Honest fmt V g0 (startCtx deps) G) (ini : Nat → Nat → Bool) (log : List Event)
    (hmade : ∀ p ∈ passes, ∀ o, cached p.id (index p.id) = some o → MadeFor sepDS p (index p.id) o)
    (hwell : EntersWell sepDS G en index passes (frameStart sepDS deps passes ini log) cached)
    (p : RunPass) (r : Rec) (he : Enters ⟨sepDS, en⟩ G index passes (frameStart sepDS deps passes ini log) p r)
    (size : Xfer.Extent) (final : Nat)
    (declared : ∀ ab ∈ Xfer.pairs p.images,
      Xfer.Declared sepDS ab.1 Layout.transferSrc ∧ Xfer.Declared sepDS ab.2 Layout.transferDst)
    (r' : Rec) (e : Xfer.imageCopy ⟨sepDS, en⟩ p size final (index p.id) r = some r') :
    StreamValid g0 r'.cmds ∧ ∀ ab ∈ Xfer.pairs p.images, ∀ s t,
      ab.1.img.view (index p.id) = some s → ab.2.img.view (index p.id) = some t →
      InLayout fmt (execAll g0 r'.cmds) s Layout.transferSrc
      ∧ InLayout fmt (execAll g0 r'.cmds) t (if final = Layout.undefined then Layout.transferDst else final) := by
  obtain ⟨h, hr⟩ := ready_of_bodies hT en index deps hH ini log
    (bodies_keep hT cached hkind en index deps hH ini log hmade hwell) p r he
  have := Xfer.inv_copyPairs hT en (enters_mem he) p.images (fun _ h => h) (hT.apart p (enters_mem he) _) declared h
    (fun a ha hm v hv => (hr a ha hm v hv).1) e
  exact ⟨this.1.good.valid, this.2.1⟩

/-! ### A concrete graph: an image is copied to another one, which gets its mipmaps and is sampled. -/

def eSrc : View := ⟨11, ⟨1, 37, 1, 1, 64, 64, 1⟩, .d2, 37, ⟨Aspect.color, 0, 1, 0, 1⟩⟩
def eDst : View := ⟨12, ⟨2, 37, 3, 1, 64, 64, 1⟩, .d2, 37, ⟨Aspect.color, 0, 3, 0, 1⟩⟩
def transferState : AccessState := ⟨Access.transferRead ||| Access.transferWrite, Stage.transfer⟩
def eCopy0 : RunPass :=
  ⟨1, 1, false, transferState, [ImageAdder.transferInput.attach 1 0 [eSrc], ImageAdder.transferOutput.attach 1 0 [eDst]], [], [],
    fun _ r => r⟩
def eCopy : RunPass :=
  { eCopy0 with body := fun index r =>
      (Xfer.imageCopy ⟨false, fun _ => true⟩ eCopy0 ⟨64, 64, 1⟩ Layout.undefined index r).getD r }
def eMips0 : RunPass :=
  ⟨2, 1, false, transferState, [(ImageAdder.transferInOut 0).attach 2 0 [eDst]], [], [], fun _ r => r⟩
def eMips : RunPass :=
  { eMips0 with body := fun _ r =>
      Mip.generateMipmaps ⟨false, fun _ => true⟩ xG eMips0 (makeLayoutState Layout.shaderReadOnly) eDst .d2 r }
def eSample : RunPass :=
  ⟨3, 1, false, drawState, [ImageAdder.sampled.attach 3 0 [eDst]], [], [], fun _ r => r.emit (.work 3)⟩
def ePasses : List RunPass := [eCopy, eMips, eSample]
def eV : View → Prop := fun v => v = eSrc ∨ v = eDst
def noObj : Nat → Nat → Option PassObj := fun _ _ => none

theorem example_attached : ∀ x, AttachedTo ePasses x → x = eSrc ∨ x = eDst := by
  rintro x ⟨p, hp, a, ha, hx⟩
  simp only [ePasses, List.mem_cons, List.not_mem_nil, or_false] at hp
  rcases hp with rfl | rfl | rfl
  · simp only [eCopy, eCopy0, List.mem_cons, List.not_mem_nil, or_false] at ha
    rcases ha with rfl | rfl
    · left; simpa [ImageAdder.attach, mkImage] using hx
    · right; simpa [ImageAdder.attach, mkImage] using hx
  · simp only [eMips, eMips0, List.mem_cons, List.not_mem_nil, or_false] at ha
    subst ha
    right; simpa [ImageAdder.attach, mkImage] using hx
  · simp only [eSample, List.mem_cons, List.not_mem_nil, or_false] at ha
    subst ha
    right; simpa [ImageAdder.attach, mkImage] using hx

theorem example_views : TidyViews false (fun _ => 37) eV ePasses := by
  refine ⟨⟨?_, ?_, ?_, ?_⟩, ?_, ?_, ?_, ?_, ?_⟩
  · rintro v (rfl | rfl) <;> rfl
  · rintro v (rfl | rfl) <;> decide
  · rintro v (rfl | rfl) <;> decide
  · rintro v w (rfl | rfl) (rfl | rfl)
    · exact Or.inr ⟨rfl, fun _ _ => Iff.rfl⟩
    · exact Or.inl (Or.inl (by decide))
    · exact Or.inl (Or.inl (by decide))
    · exact Or.inr ⟨rfl, fun _ _ => Iff.rfl⟩
  · rintro v w (rfl | rfl) (rfl | rfl) h
    · rfl
    · exact absurd h (by decide)
    · exact absurd h (by decide)
    · rfl
  · intro x hx
    rcases example_attached x hx with rfl | rfl
    · exact ⟨Or.inl rfl, by decide⟩
    · exact ⟨Or.inr rfl, by decide⟩
  · intro p hp a ha _
    simp only [ePasses, List.mem_cons, List.not_mem_nil, or_false] at hp
    rcases hp with rfl | rfl | rfl
    · simp only [eCopy, eCopy0, List.mem_cons, List.not_mem_nil, or_false] at ha
      rcases ha with rfl | rfl <;> decide
    · simp only [eMips, eMips0, List.mem_cons, List.not_mem_nil, or_false] at ha
      subst ha; decide
    · simp only [eSample, List.mem_cons, List.not_mem_nil, or_false] at ha
      subst ha; decide
  · intro p hp index
    simp only [ePasses, List.mem_cons, List.not_mem_nil, or_false] at hp
    rcases hp with rfl | rfl | rfl
    · refine List.pairwise_cons.2 ⟨?_, by simp⟩
      intro b hb v w hv hw
      simp only [List.mem_cons, List.not_mem_nil, or_false] at hb
      subst hb
      have h1 := view_mem hv
      have h2 := view_mem hw
      simp only [ImageAdder.attach, mkImage, List.mem_cons, List.not_mem_nil, or_false] at h1 h2
      subst h1; subst h2
      exact Or.inl (by decide)
    · simp [eMips, eMips0]
    · simp [eSample]
  · intro p hp va hva
    simp only [ePasses, List.mem_cons, List.not_mem_nil, or_false] at hp
    rcases hp with rfl | rfl | rfl <;> simp [eCopy, eCopy0, eMips, eMips0, eSample] at hva

theorem example_mipmaps : MakesMipmaps false xG eMips .d2 (makeLayoutState Layout.shaderReadOnly) := by
  refine ⟨fun index r => ⟨fun _ => true, ?_⟩, by decide, ?_⟩
  · have h1 : eMips.images.head? = some ((ImageAdder.transferInOut 0).attach 2 0 [eDst]) := rfl
    have h2 : ((ImageAdder.transferInOut 0).attach 2 0 [eDst]).img.view index = some eDst := rfl
    rw [h1]
    simp only
    rw [h2]
    simp only
    have h3 : eMips.layouts false = eMips0.layouts false := by simp only [RunPass.layouts, eMips]
    have h4 : eMips.body index r = generateMipmaps ⟨false, fun _ => true⟩ xG eMips0 (makeLayoutState Layout.shaderReadOnly) eDst .d2 r := by simp only [eMips]
    rw [h4]
    unfold generateMipmaps getNextLayoutState
    simp only [h3]
  · intro a ha
    have : (ImageAdder.transferInOut 0).attach 2 0 [eDst] = a := by simpa [eMips, eMips0] using ha
    subst this
    refine ⟨by decide, fun v hv => ?_⟩
    simp only [ImageAdder.attach, mkImage, List.mem_cons, List.not_mem_nil, or_false] at hv
    subst hv
    decide

theorem example_kinds : ∀ p ∈ ePasses, Kind false xG eV ePasses (noObj p.id) p := by
  intro p hp
  simp only [ePasses, List.mem_cons, List.not_mem_nil, or_false] at hp
  rcases hp with rfl | rfl | rfl
  · refine .transfers (.imageCopy (fun _ => true) ⟨64, 64, 1⟩ Layout.undefined (fun _ _ => rfl) ?_)
    intro ab hab
    have : ab = (ImageAdder.transferInput.attach 1 0 [eSrc], ImageAdder.transferOutput.attach 1 0 [eDst]) := by
      simpa [Xfer.pairs, eCopy, eCopy0] using hab
    subst this
    decide
  · exact .mipmaps .d2 _ example_mipmaps
  · exact .uses fun index r => ⟨[.work 3], by simp [BodyCall], rfl⟩

theorem example_honest : Honest (fun _ => 37) eV (fun _ _ _ _ => 0) (startCtx []) xG :=
  ⟨fun _ _ _ _ _ _ h => by simp [known, startCtx, Ctx.new, xG, LayoutMap.empty, LayoutMap.at] at h,
    fun _ _ => Or.inl fun _ _ _ => rfl, fun _ _ => Or.inl fun _ _ _ => rfl, fun _ _ => Or.inl fun _ _ _ => rfl⟩

/-- The layout announced to a pass when it is entered. -/
def announcedAt (k : Nat) (p : RunPass) : Option Nat :=
  (enteredRec ⟨false, fun _ => true⟩ xG (fun _ => 0) ePasses (frame0 ePasses) k).map fun r =>
    (getNextLayoutState false xG r.ctx p eDst).layout

theorem example_enters {p : RunPass} {r : Rec}
    (h : Enters ⟨false, fun _ => true⟩ xG (fun _ => 0) ePasses (frame0 ePasses) p r) :
    p = eCopy ∨ (p = eMips ∧ announcedAt 1 eMips = some (getNextLayoutState false xG r.ctx eMips eDst).layout)
      ∨ (p = eSample ∧ announcedAt 2 eSample = some (getNextLayoutState false xG r.ctx eSample eDst).layout) := by
  unfold ePasses Enters at h
  rcases h with ⟨rfl, -⟩ | ⟨f1, e1, h⟩
  · exact Or.inl rfl
  · unfold Enters at h
    rcases h with ⟨rfl, -, e⟩ | ⟨f2, e2, h⟩
    · refine Or.inr (Or.inl ⟨rfl, ?_⟩)
      unfold announcedAt
      unfold ePasses enteredRec
      simp only
      rw [e1, Option.bind_some]
      unfold enteredRec
      simp only
      rw [e]
      rfl
    · unfold Enters at h
      rcases h with ⟨rfl, -, e⟩ | ⟨f3, e3, h⟩
      · refine Or.inr (Or.inr ⟨rfl, ?_⟩)
        unfold announcedAt
        unfold ePasses enteredRec
        simp only
        rw [e1, Option.bind_some]
        unfold enteredRec
        simp only
        rw [e2, Option.bind_some]
        unfold enteredRec
        simp only
        rw [e]
        rfl
      · exact absurd h (by simp [Enters])

set_option maxRecDepth 20000 in
theorem example_well : EntersWell false xG (fun _ => true) (fun _ => 0) ePasses (frame0 ePasses) noObj := by
  intro p r he
  constructor
  · refine fun _ => ⟨fun o ho => by simp [noObj] at ho, ?_⟩
    intro a ha ht
    exfalso
    have : isTarget a = false := by
      rcases example_enters he with rfl | ⟨rfl, -⟩ | ⟨rfl, -⟩
      · simp only [eCopy, eCopy0, List.mem_cons, List.not_mem_nil, or_false] at ha
        rcases ha with rfl | rfl <;> decide
      · simp only [eMips, eMips0, List.mem_cons, List.not_mem_nil, or_false] at ha
        subst ha; decide
      · simp only [eSample, List.mem_cons, List.not_mem_nil, or_false] at ha
        subst ha; decide
    rw [this] at ht
    simp at ht
  · rintro ⟨ty, output, hM⟩
    rcases example_enters he with rfl | ⟨rfl, h⟩ | ⟨rfl, h⟩
    · have := (hM.declared (ImageAdder.transferInput.attach 1 0 [eSrc]) rfl).2 eSrc (by decide)
      exact absurd this.2.2 (by decide)
    · intro a ha v hv
      have h5 : announcedAt 1 eMips = some Layout.shaderReadOnly := by decide
      have : (ImageAdder.transferInOut 0).attach 2 0 [eDst] = a := by simpa [eMips, eMips0] using ha
      subst this
      have hv := view_mem hv
      simp only [ImageAdder.attach, mkImage, List.mem_cons, List.not_mem_nil, or_false] at hv
      subst hv
      rw [h5] at h
      rw [← Option.some.inj h]
      decide
    · intro a ha v hv
      have h5 : announcedAt 2 eSample = some Layout.shaderReadOnly := by decide
      have : ImageAdder.sampled.attach 3 0 [eDst] = a := by simpa [eSample] using ha
      subst this
      have hv := view_mem hv
      simp only [ImageAdder.attach, mkImage, List.mem_cons, List.not_mem_nil, or_false] at hv
      subst hv
      rw [h5] at h
      rw [← Option.some.inj h]
      decide

set_option maxRecDepth 20000 in
/-- The hypotheses of C64 hold together for this graph, and it records. -/
theorem example_library : ∃ G' f, record ⟨false, fun _ => true⟩ xG [] (fun _ => 0) ePasses (fun _ _ => false) [] = some (G', f)
    ∧ StreamValid (fun _ _ _ _ => 0) f.recd.cmds
    ∧ f.recd.cmds.length = 11 := by
  have h : ((record ⟨false, fun _ => true⟩ xG [] (fun _ => 0) ePasses (fun _ _ => false) []).map fun x => x.2.recd.cmds.length)
      = some 11 := by decide
  obtain ⟨⟨G', f⟩, e, h⟩ := Option.map_eq_some_iff.1 h
  exact ⟨G', f, e, (library_graph_valid_partial example_views noObj example_kinds _ _ _ example_honest _ _
    (fun _ _ _ h => by simp [noObj] at h) example_well G' f e).1, h⟩

end Verif.Lib
