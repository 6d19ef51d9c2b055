import Verif.Props.Keeps
/-
C70: what a drawing pass waits for and what waits for it: the subpass dependencies of its render pass.
-/
namespace Verif.RPass
open Verif.Rec Verif.Att Verif.Run Verif.Gpu

/-! ### Specification -/

/-- All the flags of `a` are among those of `b`. -/
def Within (a b : Nat) : Prop := a &&& b = a

instance (a b : Nat) : Decidable (Within a b) := inferInstanceAs (Decidable (a &&& b = a))

/-- What the pass draws in colour (stage COLOR_ATTACHMENT_OUTPUT, COLOR_ATTACHMENT_READ and WRITE accesses) waits for what was
recorded before it with the accesses and stages `s`. -/
def WaitsFor (o : PassObj) (s : AccessState) : Prop :=
  ∃ d ∈ o.deps, d.before = true ∧ Within s.stage d.srcStage ∧ Within s.access d.srcAccess
    ∧ Within 0x400 d.dstStage ∧ Within 0x180 d.dstAccess

/-- What is recorded after the pass with the accesses and stages `s` waits for what it drew in colour. -/
def WaitedBy (o : PassObj) (s : AccessState) : Prop :=
  ∃ d ∈ o.deps, d.before = false ∧ Within 0x400 d.srcStage ∧ Within 0x180 d.srcAccess
    ∧ Within s.stage d.dstStage ∧ Within s.access d.dstAccess

/-! ### Every render pass object -/

/-- The dependencies of any object the holder uses: exactly one before and one after, with the previous and the next pipeline
states of the recording. -/
theorem deps_of_made {sepDS : Bool} {p : RunPass} {index : Nat} {o : PassObj} (h : MadeFor sepDS p index o) :
    o.deps = [⟨true, o.prev.stage, 0x400, o.prev.access, 0x180⟩, ⟨false, 0x400, o.next.stage, 0x180, o.next.access⟩] := by
  obtain ⟨G, c, c', w, h, e⟩ := h
  obtain ⟨o1, o2, -, e2, e3⟩ := initialise_new e
  have h2 := (area_keeps e2).2.2.2.2.2.2
  have h3 : o2.prev = c.prev ∧ o2.next = c.next := by
    unfold area at e2
    have : ∀ (as : List Attachment) (o o' : PassObj), foldOpt areaOne o as = some o' → o'.prev = o.prev ∧ o'.next = o.next := by
      intro as
      induction as with
      | nil => intro o o' e; simp only [foldOpt, Option.some.injEq] at e; subst e; exact ⟨rfl, rfl⟩
      | cons a as ih =>
        intro o o' e
        unfold foldOpt at e
        cases e1 : areaOne o a with
        | none => rw [e1] at e; simp at e
        | some o1 =>
          rw [e1] at e
          have h1 : o1.prev = o.prev ∧ o1.next = o.next := by
            unfold areaOne at e1
            split at e1
            · cases hv : a.img.view 0 with
              | none => rw [hv] at e1; simp at e1
              | some v => rw [hv] at e1; simp only [Option.map_some, Option.some.injEq] at e1; subst e1; exact ⟨rfl, rfl⟩
            · simp only [Option.some.injEq] at e1; subst e1; exact ⟨rfl, rfl⟩
          obtain ⟨h3, h4⟩ := ih _ _ e
          exact ⟨h3.trans h1.1, h4.trans h1.2⟩
    exact this _ _ _ e2
  unfold framebuffer at e3
  cases hm : (p.images.filter isTarget).mapM fun (a : Attachment) => a.img.view index with
  | none => rw [hm] at e3; simp at e3
  | some vs =>
    rw [hm] at e3
    simp only [Option.map_some, Option.some.injEq] at e3
    subst e3
    show o2.deps = _
    rw [h2]
    simp only [h3.1, h3.2]
    rfl

/-- The object a drawing pass begins, new or made by an earlier recording, waits for the pipeline state the recording has as
previous one and is waited for by the one it has as next, and has no other dependency. -/
theorem drawing_waits {sepDS : Bool} {G : GraphSt} {w h : Nat} {p : RunPass} {cached : Option PassObj} {draw : List Nat}
    {index : Nat} {r r' : Rec} {o : PassObj} (hmade : ∀ o, cached = some o → MadeFor sepDS p index o)
    (e : recordPass sepDS G w h p cached draw index r = some (o, r')) :
    o.deps = [⟨true, r.ctx.prev.stage, 0x400, r.ctx.prev.access, 0x180⟩,
      ⟨false, 0x400, r.ctx.next.stage, 0x180, r.ctx.next.access⟩] := by
  unfold recordPass at e
  cases e0 : initialise sepDS G w h p index cached r.ctx with
  | none => rw [e0] at e; simp at e
  | some obc =>
    obtain ⟨o1, b, c⟩ := obc
    rw [e0] at e
    simp only [Option.map_some, Option.some.injEq, Prod.mk.injEq] at e
    obtain ⟨rfl, -⟩ := e
    rcases initialise_cases e0 with ⟨-, hq, -, h1, h2, -⟩ | ⟨-, hf⟩
    · rw [deps_of_made (hmade _ hq), h1, h2]
    · obtain ⟨o1, o2, -, e2, e3⟩ := initialise_new hf
      have h2 := (area_keeps e2).2.2.2.2.2.2
      unfold framebuffer at e3
      cases hm : (p.images.filter isTarget).mapM fun (a : Attachment) => a.img.view index with
      | none => rw [hm] at e3; simp at e3
      | some vs =>
        rw [hm] at e3
        simp only [Option.map_some, Option.some.injEq] at e3
        subst e3
        show o2.deps = _
        rw [h2]
        rfl

/-! ### Which passes keep the pipeline states -/

theorem samePipe_set (c : Ctx) (i : Image) (t : ViewType) (rg : Range) (s : LayoutState) : SamePipe c (c.setLayout i t rg s) :=
  ⟨rfl, rfl, rfl, rfl⟩

theorem samePipe_sets (f : Entry → LayoutState) : ∀ (es : List Entry) (c : Ctx),
    SamePipe c (es.foldl (fun (c : Ctx) (e : Entry) => c.setLayout e.view.image e.view.viewType e.view.range (f e)) c)
  | [], c => samePipe_refl c
  | e :: es, c => samePipe_trans (samePipe_set c _ _ _ _) (samePipe_sets f es _)

theorem samePipe_create {sepDS : Bool} {G : GraphSt} {p : RunPass} {index : Nat} : ∀ (as : List Attachment) (oc oc' : PassObj × Ctx),
    foldOpt (createOne sepDS G p index) oc as = some oc' → SamePipe oc.2 oc'.2
  | [], oc, oc', e => by simp only [foldOpt, Option.some.injEq] at e; subst e; exact samePipe_refl _
  | a :: as, oc, oc', e => by
    unfold foldOpt at e
    cases e1 : createOne sepDS G p index oc a with
    | none => rw [e1] at e; simp at e
    | some o1 =>
      rw [e1] at e
      refine samePipe_trans ?_ (samePipe_create as o1 oc' e)
      unfold createOne at e1
      split at e1
      · split at e1
        · simp at e1
        · rename_i v hv
          have h0 := samePipe_current G oc.2 v
          simp only at e1
          split at e1 <;>
          · simp only [Option.some.injEq] at e1
            subst e1
            exact samePipe_trans h0 (samePipe_set _ _ _ _ _)
      · simp only [Option.some.injEq] at e1; subst e1; exact samePipe_refl _

theorem samePipe_initialise {sepDS : Bool} {G : GraphSt} {w h : Nat} {p : RunPass} {index : Nat} {cached : Option PassObj}
    {c c' : Ctx} {o : PassObj} {b : Bool} (e : initialise sepDS G w h p index cached c = some (o, b, c')) : SamePipe c c' := by
  rcases initialise_cases e with ⟨-, -, -, -, -, rfl⟩ | ⟨-, hf⟩
  · exact samePipe_refl _
  · obtain ⟨o1, o2, e1, -, -⟩ := initialise_new hf
    exact samePipe_create _ _ _ e1

theorem draws_keep_pipeline {sepDS : Bool} {G : GraphSt} {p : RunPass} {cached : Nat → Option PassObj}
    (h : Renders sepDS G p cached) : KeepsPipeline p := by
  obtain ⟨w, ht, draw, hb⟩ := h
  intro index r
  rw [hb]
  cases e : recordPass sepDS G w ht p (cached index) draw index r with
  | none => exact ⟨rfl, rfl, rfl, rfl⟩
  | some x =>
    unfold recordPass at e
    cases e0 : initialise sepDS G w ht p index (cached index) r.ctx with
    | none => rw [e0] at e; simp at e
    | some obc =>
      rw [e0] at e
      simp only [Option.map_some, Option.some.injEq] at e
      subst e
      exact samePipe_trans (samePipe_initialise e0) (samePipe_trans (samePipe_sets _ _ _) (samePipe_sets _ _ _))

theorem samePipe_imageBarrier (env : Env) (r : Rec) (img : Image) (vt : ViewType) (sub : Range) (i : Nat) (w : LayoutState)
    (f : Bool) : SamePipe r.ctx (r.imageBarrier env img vt sub i w f).ctx := by
  unfold Rec.imageBarrier
  simp only
  repeat' split
  all_goals exact ⟨rfl, rfl, rfl, rfl⟩

theorem samePipe_foldl {α : Type} (f : Rec → α → Rec) (h : ∀ r a, SamePipe r.ctx (f r a).ctx) : ∀ (l : List α) (r : Rec),
    SamePipe r.ctx (l.foldl f r).ctx
  | [], r => samePipe_refl _
  | a :: l, r => samePipe_trans (h r a) (samePipe_foldl f h l (f r a))

theorem samePipe_generate (env : Env) (G : GraphSt) (v : View) (ty : ViewType) (next : LayoutState) (r : Rec) :
    SamePipe r.ctx (Mip.generate env G v ty next r).ctx := by
  unfold Mip.generate
  refine samePipe_foldl _ (fun r layer => ?_) _ _
  unfold Mip.layerStep
  simp only
  refine samePipe_trans (samePipe_current G r.ctx _) (samePipe_trans (samePipe_imageBarrier env ⟨_, _⟩ _ _ _ _ _ _)
    (samePipe_foldl _ (fun r l => ?_) _ _))
  unfold Mip.levelStep
  simp only
  have h1 := samePipe_imageBarrier env r v.image ty (Mip.sub (getAspectMask v.image.format) layer l) Layout.undefined
    (makeLayoutState Layout.transferDst) false
  generalize r.imageBarrier env v.image ty _ _ _ _ = r1 at h1 ⊢
  have h2 := samePipe_imageBarrier env (r1.emit (.blitImage v.image.id Layout.transferSrc
    (Mip.sub (getAspectMask v.image.format) layer (l - 1)) (Mip.corners v.image (l - 1)) v.image.id Layout.transferDst
    (Mip.sub (getAspectMask v.image.format) layer l) (Mip.corners v.image l) Mip.filterLinear)) v.image ty
    (Mip.sub (getAspectMask v.image.format) layer (l - 1)) Layout.transferSrc next false
  generalize Rec.imageBarrier env (r1.emit _) _ _ _ _ _ _ = r2 at h2 ⊢
  refine samePipe_trans h1 (samePipe_trans h2 ?_)
  split <;> exact samePipe_imageBarrier env _ _ _ _ _ _ _

theorem samePipe_copyPairs (env : Env) (size : Xfer.Extent) (final index : Nat) : ∀ (as : List Attachment) {r r' : Rec},
    Xfer.copyPairs env size final index as r = some r' → SamePipe r.ctx r'.ctx
  | [], r, r', e => by simp only [Xfer.copyPairs, Option.some.injEq] at e; subst e; exact samePipe_refl _
  | [_], r, r', e => by simp [Xfer.copyPairs] at e
  | s :: t :: rest, r, r', e => by
    unfold Xfer.copyPairs at e
    split at e
    · simp at e
    · rename_i r1 e1
      unfold Xfer.copyPair at e1
      split at e1
      · simp only [Option.some.injEq] at e1
        subst e1
        exact samePipe_trans (samePipe_final env (Rec.emit _ _) _ final) (samePipe_copyPairs env size final index rest e)
      · simp at e1

theorem transfers_keep_pipeline {sepDS : Bool} {p : RunPass} (hX : Xfer.Transfers sepDS p) : KeepsPipeline p := by
  intro index r
  cases hX with
  | imageCopy en size final body declared =>
    rw [body]
    cases e : Xfer.imageCopy ⟨sepDS, en⟩ p size final index r with
    | none => exact samePipe_refl _
    | some r' => exact samePipe_copyPairs ⟨sepDS, en⟩ size final index p.images e
  | imageBlit so ss dof ds fi body d1 d2 =>
    rw [body]
    unfold Xfer.imageBlit
    (repeat' split) <;> exact ⟨rfl, rfl, rfl, rfl⟩
  | bufferCopy co cr body =>
    rw [body]
    unfold Xfer.bufferCopy
    split
    · split
      · exact samePipe_trans (samePipe_buffer _ _ _ _ _ _ _) (samePipe_trans (samePipe_buffer _ _ _ _ _ _ _)
          (samePipe_trans (samePipe_buffer (Rec.emit _ _) _ _ _ _ _ _) (samePipe_buffer _ _ _ _ _ _ _)))
      · exact samePipe_refl _
    · exact samePipe_refl _
  | bufferToImage o s body d =>
    rw [body]
    unfold Xfer.bufferToImage
    (repeat' split) <;> exact ⟨rfl, rfl, rfl, rfl⟩
  | imageToBuffer o s body d =>
    rw [body]
    unfold Xfer.imageToBuffer
    (repeat' split) <;> exact ⟨rfl, rfl, rfl, rfl⟩

theorem samePipe_performAll (sepDS : Bool) : ∀ (calls : List Call) (r : Rec), SamePipe r.ctx (performAll sepDS r calls).ctx
  | [], r => samePipe_refl _
  | c :: cs, r => by
    refine samePipe_trans ?_ (samePipe_performAll sepDS cs (perform sepDS r c))
    cases c with
    | barrier v i w f => exact samePipe_barrier _ r v i w f
    | buffer q => exact samePipe_buffer _ _ _ _ _ _ _
    | register t => exact ⟨rfl, rfl, rfl, rfl⟩
    | use v en => exact samePipe_runImplicit _ r v
    | work k => exact ⟨rfl, rfl, rfl, rfl⟩

/-- Every pass of the library, and every pass that only uses the recording context, leaves the pipeline states alone. -/
theorem library_keeps_pipeline {sepDS : Bool} {G : GraphSt} {V : View → Prop} {passes : List RunPass}
    {cached : Nat → Option PassObj} {p : RunPass} (h : Lib.Kind sepDS G V passes cached p) : KeepsPipeline p := by
  cases h with
  | draws h _ => exact draws_keep_pipeline h
  | transfers h => exact transfers_keep_pipeline h
  | mipmaps ty output h =>
    intro index r
    obtain ⟨en, e⟩ := h.body index r
    rw [e]
    split
    · split
      · exact samePipe_generate _ _ _ _ _ _
      · exact samePipe_refl _
    · exact samePipe_refl _
  | uses h =>
    intro index r
    obtain ⟨calls, -, e⟩ := h index r
    rw [e]
    exact samePipe_performAll sepDS calls r

/-! ### Whole frames -/

theorem within_refl (a : Nat) : Within a a := Nat.and_self a

/-- C70 (partial: see the negations below). In any frame, of any graph, with any passes enabled, made of passes that leave the
pipeline states alone (all those of the library do): what the pass at position `k` draws in colour waits for what the pass just
before declares, if it is enabled, and what the first enabled pass after it declares waits for what it drew. The render pass
has one dependency of each kind and no other, and was made by this or any earlier recording. -/
theorem drawing_ordered_partial (env : Env) (G : GraphSt) (deps : List Ctx) (index : Nat → Nat)
    (passes : List RunPass) (hb : ∀ p ∈ passes, KeepsPipeline p) (ini : Nat → Nat → Bool) (log : List Event)
    (k : Nat) (r : Rec) (hk : EntersAt env G index passes (frameStart env.sepDS deps passes ini log) k r)
    {p : RunPass} (hp : passes[k]? = some p) {w h : Nat} {cached : Option PassObj} {draw : List Nat}
    {r' : Rec} {o : PassObj} (hmade : ∀ o, cached = some o → MadeFor env.sepDS p (index p.id) o)
    (e : recordPass env.sepDS G w h p cached draw (index p.id) r = some (o, r')) :
    (∀ j q, j + 1 = k → passes[j]? = some q → env.enabled q.id = true → WaitsFor o q.state)
    ∧ (∀ n, FirstEnabled env.enabled (passes.drop (k + 1)) n → WaitedBy o n.state)
    ∧ ((∀ n ∈ passes.drop (k + 1), env.enabled n.id = false) → WaitedBy o p.state)
    ∧ o.deps.length = 2 := by
  obtain ⟨q, h1, -, -, h4, h5, h6⟩ := pipeline_states_partial env G deps index passes hb ini log k r hk
  rw [hp] at h1
  cases h1
  have hd := drawing_waits hmade e
  refine ⟨?_, ?_, ?_, by rw [hd]; rfl⟩
  · intro j q hj hq hen
    refine ⟨_, by rw [hd]; exact List.mem_cons_self, rfl, ?_, ?_, within_refl _, within_refl _⟩ <;>
    · rw [h6 j q hj hq hen]; exact within_refl _
  · intro n hn
    refine ⟨_, by rw [hd]; exact List.mem_cons_of_mem _ List.mem_cons_self, rfl, within_refl _, within_refl _, ?_, ?_⟩ <;>
    · rw [h4 n hn]; exact within_refl _
  · intro hn
    refine ⟨_, by rw [hd]; exact List.mem_cons_of_mem _ List.mem_cons_self, rfl, within_refl _, within_refl _, ?_, ?_⟩ <;>
    · rw [h5 hn]; exact within_refl _

/-- C70 for the passes of the library: the next enabled pass, if it is a compute pass (whose state is the one of
COMPUTE_SHADER), waits with its shader reads for what was drawn in colour; if it is a transfer pass (TRANSFER), with its
transfers; if it draws (COLOR_ATTACHMENT_OUTPUT), with what it draws in colour. -/
theorem next_waits_partial (env : Env) (G : GraphSt) (deps : List Ctx) (index : Nat → Nat)
    (passes : List RunPass) (hb : ∀ p ∈ passes, KeepsPipeline p) (ini : Nat → Nat → Bool) (log : List Event)
    (k : Nat) (r : Rec) (hk : EntersAt env G index passes (frameStart env.sepDS deps passes ini log) k r)
    {p : RunPass} (hp : passes[k]? = some p) {w h : Nat} {cached : Option PassObj} {draw : List Nat}
    {r' : Rec} {o : PassObj} (hmade : ∀ o, cached = some o → MadeFor env.sepDS p (index p.id) o)
    (e : recordPass env.sepDS G w h p cached draw (index p.id) r = some (o, r'))
    {n : RunPass} (hn : FirstEnabled env.enabled (passes.drop (k + 1)) n) :
    (n.state = getPipelineState 0x800 → WaitedBy o ⟨0x20, 0x800⟩)
    ∧ (n.state = getPipelineState 0x1000 → WaitedBy o ⟨0x1800, 0x1000⟩)
    ∧ (n.state = getPipelineState 0x400 → WaitedBy o ⟨0x180, 0x400⟩) := by
  have h := (drawing_ordered_partial env G deps index passes hb ini log k r hk hp hmade e).2.1 n hn
  refine ⟨?_, ?_, ?_⟩ <;>
  · intro hs
    rw [hs] at h
    exact h

/-! ### What is not ordered -/

/-- The image barriers of a stream on an image. -/
def barriersOn (image : Nat) (cs : List Cmd) : List Cmd :=
  cs.filter fun | .imageBarrier i _ _ _ _ _ => i == image | _ => false

def wOther : View := ⟨12, { xImg with id := 2 }, .d2, 37, rng1⟩
def wDepth : View := ⟨13, { xImg with id := 3, format := 126 }, .d2, 126, ⟨2, 0, 1, 0, 1⟩⟩
/-- A pass that samples an image in its fragment shader and draws to another. -/
def wSampler : RunPass := drawPass 2 [ImageAdder.sampled.attach 2 0 [xView], ImageAdder.outputColour.attach 2 0 [wOther]]
/-- A compute pass that samples an image. -/
def wCompute (i : Nat) (v : View) : RunPass :=
  ⟨i, 1, true, getPipelineState 0x800, [ImageAdder.sampled.attach i 0 [v]], [], [], fun _ r => r⟩
/-- A transfer pass that overwrites another image. -/
def wCopy : RunPass := ⟨2, 1, false, getPipelineState 0x1000, [ImageAdder.transferOutput.attach 2 0 [wOther]], [], [], fun _ r => r⟩
def wDepthPass : RunPass := drawPass 1 [ImageAdder.outputDepth.attach 1 0 [wDepth]]
def wDraw (p : RunPass) : RunPass := RunPass.drawing false xG p none [p.id]

/-- The object the pass at a position begins. -/
def objAt (ps : List RunPass) (k : Nat) : Option PassObj :=
  (enteredRec ⟨false, fun _ => true⟩ xG (fun _ => 0) ps (frame0 ps) k).bind fun r =>
    (ps[k]?).bind fun p => (recordPass false xG 64 64 p none [p.id] 0 r).map (·.1)

/-- C70 is false of a drawing pass that samples what the pass before drew: no command of the frame and no dependency of either
render pass has the fragment shader stage (0x80) after it, so the reads wait for nothing. -/
theorem sampled_by_drawing_unordered : ∃ o o' x,
    objAt [wDraw aFirst, wDraw wSampler] 0 = some o ∧ objAt [wDraw aFirst, wDraw wSampler] 1 = some o'
    ∧ frameOf xG [wDraw aFirst, wDraw wSampler] (fun _ => true) = some x
    ∧ (∀ c ∈ x.2.recd.cmds, ¬ IsBarrier c) ∧ ∀ d ∈ o.deps ++ o'.deps, d.dstStage &&& 0x80 = 0 := by
  have h1 : (objAt [wDraw aFirst, wDraw wSampler] 0).map (·.deps) = some
      [⟨true, 0x2000, 0x400, 0, 0x180⟩, ⟨false, 0x400, 0x400, 0x180, 0x180⟩] := by decide
  have h2 : (objAt [wDraw aFirst, wDraw wSampler] 1).map (·.deps) = some
      [⟨true, 0x400, 0x400, 0x180, 0x180⟩, ⟨false, 0x400, 0x400, 0x180, 0x180⟩] := by decide
  have h3 : (frameOf xG [wDraw aFirst, wDraw wSampler] (fun _ => true)).map
      (fun x => x.2.recd.cmds.all fun | .imageBarrier .. => false | .bufferBarrier .. => false | _ => true) = some true := by decide
  obtain ⟨o, e1, f1⟩ := Option.map_eq_some_iff.1 h1
  obtain ⟨o', e2, f2⟩ := Option.map_eq_some_iff.1 h2
  obtain ⟨x, e3, f3⟩ := Option.map_eq_some_iff.1 h3
  refine ⟨o, o', x, e1, e2, e3, ?_, by rw [f1, f2]; decide⟩
  intro c hc
  have := List.all_eq_true.1 f3 c hc
  cases c <;> simp_all [IsBarrier]

/-- C70 is false of a reader that isn't the next enabled pass: a compute pass (stage 0x800) sampling what was drawn two passes
before waits for nothing. -/
theorem later_reader_unordered : ∃ o x,
    objAt [wDraw aFirst, wCopy, wCompute 3 xView] 0 = some o
    ∧ frameOf xG [wDraw aFirst, wCopy, wCompute 3 xView] (fun _ => true) = some x
    ∧ barriersOn 1 x.2.recd.cmds = [] ∧ ∀ d ∈ o.deps, d.dstStage &&& 0x800 = 0 := by
  have h1 : (objAt [wDraw aFirst, wCopy, wCompute 3 xView] 0).map (·.deps) = some
      [⟨true, 0x2000, 0x400, 0, 0x180⟩, ⟨false, 0x400, 0x1000, 0x180, 0x1800⟩] := by decide
  have h3 : (frameOf xG [wDraw aFirst, wCopy, wCompute 3 xView] (fun _ => true)).map
      (fun x => barriersOn 1 x.2.recd.cmds) = some [] := by decide
  obtain ⟨o, e1, f1⟩ := Option.map_eq_some_iff.1 h1
  obtain ⟨x, e3, f3⟩ := Option.map_eq_some_iff.1 h3
  exact ⟨o, x, e1, e3, f3, by rw [f1]; decide⟩

/-- C70 is false of depth and stencil targets. No render pass object has a dependency after it with the depth/stencil accesses
(0x600) or the fragment tests stages (0x300) before it; and nothing else orders the reads of a depth target by the next pass. -/
theorem depth_unordered :
    (∀ sepDS p index o, MadeFor sepDS p index o →
      ∀ d ∈ o.deps, d.before = false → d.srcAccess &&& 0x600 = 0 ∧ d.srcStage &&& 0x300 = 0)
    ∧ ∃ x, frameOf xG [wDraw wDepthPass, wCompute 2 wDepth] (fun _ => true) = some x
      ∧ (objAt [wDraw wDepthPass, wCompute 2 wDepth] 0).isSome ∧ ∀ c ∈ x.2.recd.cmds, ¬ IsBarrier c := by
  refine ⟨?_, ?_⟩
  · intro sepDS p index o h d hd hb
    rw [deps_of_made h] at hd
    simp only [List.mem_cons, List.not_mem_nil, or_false] at hd
    rcases hd with rfl | rfl
    · cases hb
    · show (0x180 : Nat) &&& 0x600 = 0 ∧ (0x400 : Nat) &&& 0x300 = 0
      decide
  · have h3 : (frameOf xG [wDraw wDepthPass, wCompute 2 wDepth] (fun _ => true)).map
        (fun x => x.2.recd.cmds.all fun | .imageBarrier .. => false | .bufferBarrier .. => false | _ => true) = some true := by decide
    obtain ⟨x, e3, f3⟩ := Option.map_eq_some_iff.1 h3
    refine ⟨x, e3, by decide, ?_⟩
    intro c hc
    have := List.all_eq_true.1 f3 c hc
    cases c <;> simp_all [IsBarrier]

/-! ### The hypotheses are met -/

theorem entersAt_of {env : Env} {G : GraphSt} {index : Nat → Nat} : ∀ {ps : List RunPass} {f : Frame} {k : Nat} {r : Rec},
    enteredRec env G index ps f k = some r → EntersAt env G index ps f k r
  | [], f, k, r, h => by simp [enteredRec] at h
  | p :: next, f, 0, r, h => by
    simp only [enteredRec] at h
    split at h
    · rename_i hen
      exact ⟨hen, h⟩
    · simp at h
  | p :: next, f, k + 1, r, h => by
    simp only [enteredRec] at h
    obtain ⟨f', h1, h2⟩ := Option.bind_eq_some_iff.1 h
    exact ⟨f', h1, entersAt_of h2⟩

/-- A frame drawing to an image, then blending over it, then sampling it in a compute pass: the second pass waits for the first,
and the third for the second. -/
theorem example_ordered : ∃ o, objAt [wDraw aFirst, wDraw aBlend, wCompute 3 xView] 1 = some o
    ∧ WaitsFor o ⟨0x180, 0x400⟩ ∧ WaitedBy o ⟨0x20, 0x800⟩ := by
  have hr : (enteredRec ⟨false, fun _ => true⟩ xG (fun _ => 0) [wDraw aFirst, wDraw aBlend, wCompute 3 xView]
      (frame0 [wDraw aFirst, wDraw aBlend, wCompute 3 xView]) 1).map
      (fun r => (recordPass false xG 64 64 (wDraw aBlend) none [2] 0 r).isSome) = some true := by decide
  obtain ⟨r, er, f⟩ := Option.map_eq_some_iff.1 hr
  obtain ⟨⟨o, r'⟩, eo⟩ := Option.isSome_iff_exists.1 f
  have hb : ∀ p ∈ [wDraw aFirst, wDraw aBlend, wCompute 3 xView], KeepsPipeline p := by
    intro p hp
    simp only [List.mem_cons, List.not_mem_nil, or_false] at hp
    rcases hp with rfl | rfl | rfl
    · exact draws_keep_pipeline (sepDS := false) (G := xG) (cached := fun _ => none) ⟨64, 64, [1], fun _ _ => rfl⟩
    · exact draws_keep_pipeline (sepDS := false) (G := xG) (cached := fun _ => none) ⟨64, 64, [2], fun _ _ => rfl⟩
    · exact fun _ _ => ⟨rfl, rfl, rfl, rfl⟩
  have h1 := drawing_ordered_partial ⟨false, fun _ => true⟩ xG [] (fun _ => 0) _ hb (fun _ _ => false) [] 1 r (entersAt_of er)
    (p := wDraw aBlend) rfl (fun _ h => by cases h) eo
  have h2 := next_waits_partial ⟨false, fun _ => true⟩ xG [] (fun _ => 0) _ hb (fun _ _ => false) [] 1 r (entersAt_of er)
    (p := wDraw aBlend) rfl (fun _ h => by cases h) eo (n := wCompute 3 xView)
    ⟨0, rfl, rfl, fun j _ hj => absurd hj (by omega)⟩
  refine ⟨o, ?_, h1.1 0 (wDraw aFirst) rfl rfl rfl, h2.1 rfl⟩
  unfold objAt
  rw [er]
  show ((recordPass false xG 64 64 (wDraw aBlend) none [2] 0 r).map (·.1)) = some o
  rw [eo]
  rfl

end Verif.RPass
