import Verif.Spec.Tables
import Verif.Props.Attachment
import Verif.Props.RenderPass
import Verif.Props.Observe
/-
Exact values against the tables of the Vulkan specification (C13, C16, C36, C46), first dependency wins (C11), and C47 in terms
of the methods of FramePass.
-/
namespace Verif.Tables
open Verif.Rec Verif.Att Verif.Run Verif.Gpu

/-! ### C13, C46: formats -/

/-- C13. The aspects derived from a format are those of the Vulkan specification, for every format number. -/
theorem aspect_mask_table (f : Nat) : getAspectMask f = aspects f
    ∧ (isColourFormat f = true ↔ aspects f = 1)
    ∧ (isDepthFormat f = true ↔ (aspects f).testBit 1 = true)
    ∧ (isStencilFormat f = true ↔ (aspects f).testBit 2 = true) :=
  formats_aspects f

/-- C13. The range of a recorded barrier: the one asked for; of one aspect of a combined depth/stencil image, on devices
without separate layouts, both. -/
theorem barrier_range_table (sepDS : Bool) (f : Nat) (r : Range) :
    adaptRange sepDS f r = if sepDS = false ∧ aspects f = 6 ∧ (r.aspect = 2 ∨ r.aspect = 4) then { r with aspect := 6 } else r := by
  have h := aspect_mask_table f
  have h6 : isDepthStencilFormat f = true ↔ aspects f = 6 := by
    unfold isDepthStencilFormat
    rw [Bool.and_eq_true, h.2.2.1, h.2.2.2]
    unfold aspects
    split <;> simp (config := { decide := true })
  unfold adaptRange
  by_cases hc : sepDS = false ∧ aspects f = 6 ∧ (r.aspect = 2 ∨ r.aspect = 4)
  · rw [if_pos hc, if_pos]
    · rfl
    · obtain ⟨h1, h2, h3⟩ := hc
      rw [h1, h6.2 h2]
      rcases h3 with h3 | h3 <;> rw [h3] <;> decide
  · rw [if_neg hc, if_neg]
    intro hd
    apply hc
    simp only [Bool.and_eq_true, Bool.not_eq_true', Bool.or_eq_true, beq_iff_eq] at hd
    exact ⟨hd.1, h6.1 hd.2.1, hd.2.2⟩

/-! ### C36, C16: stages and accesses -/

/-- C36. The stage derived for an image attachment is that of the table, but for sampled images of compute passes. -/
theorem image_stage_table (m : ImageAdder) (compute : Bool) (s : Nat) (hs : imageStage compute m = some s)
    (hm : ¬ (m = .sampled ∧ compute = true)) (p b : Nat) (vs : List View) :
    (m.attach p b vs).getPipelineStageFlags compute = s := by
  cases m
  case transferInOut f =>
    have hdir := image_direction (.transferInOut f) .inOut rfl p b vs
    simp [imageStage] at hs
    subst hs
    unfold Attachment.getPipelineStageFlags
    rw [if_pos hdir.1]
    cases compute <;> attfull
  case sampled =>
    cases compute
    · simp [imageStage] at hs; subst hs; attfull
    · exact absurd ⟨rfl, rfl⟩ hm
  all_goals first
    | (simp [imageStage] at hs; subst hs; cases compute <;> attfull)
    | simp [imageStage] at hs

/-- C36. The access derived for an image attachment: the table's read if it is an input, the table's write if it is an output. -/
theorem image_access_table (m : ImageAdder) (d : Dir) (hd : m.dir = some d) (acc : Nat × Nat)
    (ha : imageAccesses m = some acc) (p b : Nat) (vs : List View) :
    (m.attach p b vs).getAccessMask = (if d.reads then acc.1 else 0) ||| (if d.writes then acc.2 else 0) := by
  cases m
  case transferInOut f =>
    have hdir := image_direction (.transferInOut f) d hd p b vs
    simp [ImageAdder.dir] at hd
    simp [imageAccesses] at ha
    subst hd ha
    unfold Attachment.getAccessMask
    rw [if_pos hdir.1, hdir.2.1, hdir.2.2.1]
    attfull
  all_goals first
    | (simp [ImageAdder.dir] at hd; simp [imageAccesses] at ha; subst hd ha; attfull)
    | simp [ImageAdder.dir] at hd

/-- C36. The stage derived for a buffer attachment is that of the table (the caller's extra flags may be `Clearable`,
`NoTransition` or nothing). -/
theorem buffer_stage_table (m : BufferAdder) (compute : Bool) (s : Nat) (hs : bufferStage compute m = some s)
    (hx : ∀ f, m = .transferInOut f → hasFlag (11 ||| f) Flag.image = false) (p b : Nat) (bs : List Nat) (v o n : Nat) :
    (m.attach p b bs v o n).getPipelineStageFlags compute = s := by
  cases m
  case transferInOut f =>
    simp [bufferStage] at hs
    subst hs
    have hni : ((BufferAdder.transferInOut f).attach p b bs v o n).isImage = false := by
      unfold Attachment.isImage; rw [transferInOut_buffer_flags]; exact hx f rfl
    unfold Attachment.getPipelineStageFlags
    rw [hni]
    cases compute <;> attfull
  all_goals first
    | (simp [bufferStage] at hs; subst hs; cases compute <;> attfull)
    | simp [bufferStage] at hs

/-- C36, C16. The access derived for a buffer attachment. -/
theorem buffer_access_table (m : BufferAdder) (d : Dir) (hd : m.dir = some d) (acc : Nat × Nat)
    (ha : bufferAccesses m = some acc)
    (hx : ∀ f, m = .transferInOut f → hasFlag (11 ||| f) Flag.image = false) (p b : Nat) (bs : List Nat) (v o n : Nat) :
    (m.attach p b bs v o n).getAccessMask = (if d.reads then acc.1 else 0) ||| (if d.writes then acc.2 else 0) := by
  cases m
  case transferInOut f =>
    have hdir := buffer_direction (.transferInOut f) d hd p b bs v o n
    have hni : ((BufferAdder.transferInOut f).attach p b bs v o n).isImage = false := by
      unfold Attachment.isImage; rw [transferInOut_buffer_flags]; exact hx f rfl
    simp [BufferAdder.dir] at hd
    simp [bufferAccesses] at ha
    subst hd ha
    unfold Attachment.getAccessMask
    rw [hni, hdir.2.1, hdir.2.2.1]
    attfull
  all_goals first
    | (simp [BufferAdder.dir] at hd; simp [bufferAccesses] at ha; subst hd ha; attfull)
    | simp [BufferAdder.dir] at hd

/-! ### C11: the first dependency wins -/

/-- C11. Importing another context's states: images with a known state keep it, the others get the imported one. -/
theorem context_import_images (c d : Ctx) (img : Image) (vt : ViewType) (r : Range) :
    ((c.images img.id).isSome → (c.addStates d).images.getState img vt r = c.images.getState img vt r)
    ∧ (c.images img.id = none → (c.addStates d).images.getState img vt r = d.images.getState img vt r) :=
  import_keeps_known c.images d.images img vt r

/-- C11. A recording starts with the states of its dependencies: each image's, and each buffer's, come from the first
dependency that knows it. -/
theorem dependency_states (pre : List Ctx) (d : Ctx) (post : List Ctx) :
    (∀ (img : Image) (vt : ViewType) (r : Range), (∀ x ∈ pre, x.images img.id = none) → (d.images img.id).isSome →
      (startCtx (pre ++ d :: post)).images.getState img vt r = d.images.getState img vt r)
    ∧ (∀ b, (∀ x ∈ pre, x.buffers b = none) → (d.buffers b).isSome →
      (startCtx (pre ++ d :: post)).getAccess b = d.getAccess b) := by
  refine ⟨?_, ?_⟩
  · intro img vt r hpre hd
    have e : ∀ (l : List Ctx) (c : Ctx), (l.foldl Ctx.addStates c).images
        = (l.map (·.images)).foldl LayoutMap.addStates c.images := by
      intro l
      induction l with
      | nil => intro c; rfl
      | cons x xs ih => intro c; exact ih _
    unfold startCtx
    rw [e, List.map_append, List.map_cons]
    apply import_first_wins
    · rfl
    · intro x hx
      obtain ⟨y, hy, rfl⟩ := List.mem_map.1 hx
      exact hpre y hy
    · exact hd
  · intro b hpre hd
    exact import_buffers_first_wins Ctx.new pre d post b rfl hpre hd

/-- And these are the states the graph's first pass finds. -/
theorem dependency_states_in_frame (sepDS : Bool) (deps : List Ctx) (passes : List RunPass) (ini : Nat → Nat → Bool)
    (log : List Event) : (frameStart sepDS deps passes ini log).recd.ctx.images = (startCtx deps).images
      ∧ (frameStart sepDS deps passes ini log).recd.ctx.buffers = (startCtx deps).buffers := by
  refine ⟨(firstAnnounce_keeps sepDS passes (startCtx deps)).1, ?_⟩
  show (firstAnnounce sepDS passes (startCtx deps)).buffers = _
  unfold firstAnnounce
  split <;> rfl

example : ((Ctx.new.setLayout xImg .d2 xView.range (makeLayoutState 5)).images xImg.id).isSome
    ∧ (Ctx.new.images xImg.id = none) := ⟨rfl, rfl⟩

/-! ### C47 in terms of the methods -/

/-- C47 (partial: tidy graphs). An image declared with any of the methods but those of render targets is, when the body of the
pass starts, wholly in the layout of its attachment. -/
theorem declared_images_ready_partial {sepDS : Bool} {fmt : Nat → Nat} {V : View → Prop} {passes : List RunPass}
    {g0 : Layouts} {G : GraphSt} (hT : TidyGraph sepDS fmt V passes) (en : Nat → Bool) (index : Nat → Nat)
    (deps : List Ctx) (hH : Honest fmt V g0 (startCtx deps) G) (ini : Nat → Nat → Bool) (log : List Event)
    (k : Nat) (q : RunPass) (r : Rec) (hk : passes[k]? = some q)
    (he : EntersAt ⟨sepDS, en⟩ G index passes (frameStart sepDS deps passes ini log) k r)
    (m : ImageAdder) (binding : Nat) (views : List View) (hm : m.attach q.id binding views ∈ q.images)
    (hdraw : RPass.ImageAdder.draws m = false) (hx : ∀ f, m = .transferInOut f → f = 0)
    (v : View) (hv : (m.attach q.id binding views).img.view (index q.id) = some v) :
    BodyGets ⟨sepDS, en⟩ G deps index passes ini log k q r
    ∧ InLayout fmt (execAll g0 r.cmds) v ((m.attach q.id binding views).getImageLayout sepDS) := by
  have hent : Enters ⟨sepDS, en⟩ G index passes (frameStart sepDS deps passes ini log) q r := by
    have key : ∀ (ps : List RunPass) (f : Frame) (k : Nat), ps[k]? = some q → EntersAt ⟨sepDS, en⟩ G index ps f k r →
        Enters ⟨sepDS, en⟩ G index ps f q r := by
      intro ps
      induction ps with
      | nil => intro f k h; simp at h
      | cons p next ih =>
        intro f k h h'
        cases k with
        | zero =>
          simp only [List.getElem?_cons_zero, Option.some.injEq] at h
          subst h
          exact Or.inl ⟨rfl, h'.1, h'.2⟩
        | succ k =>
          obtain ⟨f', e, h'⟩ := h'
          exact Or.inr ⟨f', e, ih f' k h h'⟩
    exact key passes _ k hk he
  obtain ⟨q', h1, h2⟩ := entered_is_given ⟨sepDS, en⟩ G deps index passes ini log k r he
  rw [hk] at h1
  cases h1
  refine ⟨⟨hk, h2⟩, (passes_start_ready_partial hT en index deps hH ini log q r hent).2 _ hm ?_ v hv⟩
  rw [(RPass.targets_are_attachments m q.id binding views hx).2, hdraw]
  rfl

/-! ### C46: the right clear command -/

/-- What Vulkan requires of clear commands (VUID-vkCmdClearColorImage-image-00007, VUID-vkCmdClearDepthStencilImage-image-00014):
`vkCmdClearColorImage` for colour images, `vkCmdClearDepthStencilImage` for the others. -/
def ClearOk (fmt : Nat → Nat) : Cmd → Prop
  | .clearImage colour img _ _ _ => (colour = true ↔ aspects (fmt img) = 1)
  | _ => True

/-- Views have the aspects of their image. -/
def SameAspects (fmt : Nat → Nat) (v : View) : Prop := aspects v.format = aspects (fmt v.image.id)

/-- The view an action clears. -/
def ActionClears (fmt : Nat → Nat) : Action → Prop
  | .clear d _ _ => SameAspects fmt d
  | _ => True

/-- Nothing but right clears recorded, nothing but right clears pending. -/
def ClearsOk (fmt : Nat → Nat) (r : Rec) : Prop :=
  (∀ c ∈ r.cmds, ClearOk fmt c) ∧ ∀ t ∈ r.ctx.implicit, ActionClears fmt t.action

section
variable {fmt : Nat → Nat}

theorem clearsOk_emit {r : Rec} (h : ClearsOk fmt r) {c : Cmd} (hc : ClearOk fmt c) : ClearsOk fmt (r.emit c) := by
  refine ⟨?_, h.2⟩
  intro x hx
  have hx' : x ∈ r.cmds ++ [c] := hx
  rcases List.mem_append.1 hx' with hx' | hx'
  · exact h.1 x hx'
  · simp only [List.mem_singleton] at hx'
    subst hx'; exact hc

theorem clearsOk_barrier {env : Env} {r : Rec} (h : ClearsOk fmt r) (v : View) (i : Nat) (w : LayoutState) (f : Bool) :
    ClearsOk fmt (r.viewBarrier env v i w f) := by
  unfold Rec.viewBarrier
  obtain ⟨src, -, ⟨-, e⟩ | ⟨-, e⟩⟩ := imageBarrier_cases env r v.image v.viewType v.range i w f <;> rw [e]
  · have := clearsOk_emit h (c := .imageBarrier v.image.id (adaptRange env.sepDS v.image.format v.range) src.state w.state
      src.layout w.layout) trivial
    exact ⟨this.1, h.2⟩
  · exact h

theorem clearsOk_buffer {r : Rec} (h : ClearsOk fmt r) (b o s : Nat) (i w : AccessState) (f : Bool) :
    ClearsOk fmt (r.bufferBarrier b o s i w f) := by
  unfold Rec.bufferBarrier
  simp only
  generalize (if (r.ctx.getAccess b).stage = Stage.bottomOfPipe then i else r.ctx.getAccess b) = src
  split
  · exact clearsOk_emit h (by trivial)
  · exact h

theorem clearsOk_final {env : Env} {r : Rec} (h : ClearsOk fmt r) (v : View) (l : Nat) :
    ClearsOk fmt (r.finalBarrier env v l) := by
  unfold Rec.finalBarrier
  split
  · exact clearsOk_barrier h _ _ _ _
  · exact h

theorem clearOk_view {v : View} (h : SameAspects fmt v) (l : Nat) (r : Range) (x : Nat) :
    ClearOk fmt (.clearImage (isColourFormat v.format) v.image.id l r x) := by
  show (isColourFormat v.format = true ↔ aspects (fmt v.image.id) = 1)
  rw [(aspect_mask_table v.format).2.1, h]

theorem clearsOk_runImplicit (env : Env) : ∀ (n : Nat) (r : Rec) (v : View), r.ctx.implicit.length = n →
    ClearsOk fmt r → ClearsOk fmt (r.runImplicit env v) := by
  intro n
  induction n using Nat.strongRecOn with
  | ind n ih =>
    intro r v hn h
    cases hf : r.ctx.implicit.find? (Implicit.isFor v) with
    | none => rw [runImplicit_none _ _ _ hf]; exact h
    | some t =>
      rw [runImplicit_some _ _ _ _ hf]
      have hlt := eraseP_lt hf
      have hact := h.2 t (List.mem_of_find?_eq_some hf)
      have he : ClearsOk fmt { r with ctx := { r.ctx with implicit := r.ctx.implicit.eraseP (Implicit.isFor v) } } :=
        ⟨h.1, fun t ht => h.2 t (List.mem_of_mem_eraseP ht)⟩
      simp only
      split
      · exact he
      · split
        · exact he
        · exact clearsOk_emit he trivial
        · unfold Rec.doCopy
          exact clearsOk_final (clearsOk_emit (clearsOk_barrier (clearsOk_barrier
            (ih _ (by rw [← hn]; exact hlt) _ _ rfl he) _ _ _ _) _ _ _ _) (by trivial)) _ _
        · unfold Rec.doBlit
          exact clearsOk_final (clearsOk_emit (clearsOk_barrier (clearsOk_barrier
            (ih _ (by rw [← hn]; exact hlt) _ _ rfl he) _ _ _ _) _ _ _ _) (by trivial)) _ _
        · rename_i dst value final hj
          rw [hj] at hact
          unfold Rec.doClear
          exact clearsOk_final (clearsOk_emit (clearsOk_barrier he _ _ _ _) (clearOk_view hact _ _ _)) _ _

theorem clearsOk_prepare (env : Env) (G : GraphSt) (p : RunPass) (index : Nat)
    (hp : ∀ a ∈ p.images, ∀ v ∈ a.img.views, SameAspects fmt v) (r r' : Rec) (h : ClearsOk fmt r)
    (e : prepare env G p index r = some r') : ClearsOk fmt r' := by
  have fold : ∀ (f : Rec → Attachment → Option Rec) (as : List Attachment),
      (∀ a ∈ as, ∀ r r', ClearsOk fmt r → f r a = some r' → ClearsOk fmt r') →
      ∀ r r', ClearsOk fmt r → foldOpt f r as = some r' → ClearsOk fmt r' := by
    intro f as
    induction as with
    | nil => intro _ r r' h e; simp only [foldOpt, Option.some.injEq] at e; subst e; exact h
    | cons a as ih =>
      intro hf r r' h e
      unfold foldOpt at e
      split at e
      · simp at e
      · rename_i r1 e1
        exact ih (fun x hx => hf x (by simp [hx])) r1 r' (hf a (by simp) r r1 h e1) e
  unfold prepare at e
  split at e
  · simp at e
  · rename_i r1 e1
    refine fold _ p.buffers ?_ r1 r' (fold _ p.images ?_ r r1 h e1) e
    · intro a _ r r' h e
      unfold recordBuffer at e
      split at e
      · split at e
        · simp at e
        · simp only at e
          split at e
          · simp only [Option.some.injEq] at e
            subst e
            exact clearsOk_buffer (clearsOk_emit (clearsOk_buffer h _ _ _ _ _ _) (by trivial)) _ _ _ _ _ _
          · simp only [Option.some.injEq] at e
            subst e
            exact clearsOk_buffer h _ _ _ _ _ _
      · simp only [Option.some.injEq] at e
        subst e; exact h
    · intro a ha r r' h e
      unfold recordImage at e
      split at e
      · simp at e
      · rename_i v hv
        have h1 := clearsOk_runImplicit env _ r v rfl h
        simp only at e
        split at e
        · have hc : ClearsOk fmt { r.runImplicit env v with
              ctx := (if (!a.isInput) = true then (makeLayoutState Layout.undefined, (r.runImplicit env v).ctx)
                else getCurrentLayoutState G (r.runImplicit env v).ctx v).2 } := by
            refine ⟨h1.1, ?_⟩
            intro t ht
            simp only at ht
            split at ht
            · exact h1.2 t ht
            · have hi : (getCurrentLayoutState G (r.runImplicit env v).ctx v).2.implicit
                  = (r.runImplicit env v).ctx.implicit := by
                unfold getCurrentLayoutState
                simp only
                repeat' split
                all_goals rfl
              rw [hi] at ht
              exact h1.2 t ht
          split at e
          · simp only [Option.some.injEq] at e
            subst e
            exact clearsOk_barrier (clearsOk_emit (clearsOk_barrier hc _ _ _ _)
              (clearOk_view (hp a ha v (view_mem hv)) _ _ _)) _ _ _ _
          · simp only [Option.some.injEq] at e
            subst e
            exact clearsOk_barrier hc _ _ _ _
        · simp only [Option.some.injEq] at e
          subst e; exact h1

theorem clearsOk_registerAll (p : RunPass) (hp : ∀ va ∈ p.implicitActions, ActionClears fmt va.2) (r : Rec)
    (h : ClearsOk fmt r) : ClearsOk fmt (registerAll p r) := by
  unfold registerAll
  have : ∀ (l : List (View × Action)), (∀ va ∈ l, ActionClears fmt va.2) → ∀ r, ClearsOk fmt r →
      ClearsOk fmt (l.foldl (fun r va => r.register ⟨p.id, va.1, va.2⟩) r) := by
    intro l
    induction l with
    | nil => intro _ r h; exact h
    | cons va l ih =>
      intro hl r h
      refine ih (fun x hx => hl x (by simp [hx])) _ ⟨h.1, ?_⟩
      intro t ht
      have ht' : t ∈ r.ctx.implicit ++ [⟨p.id, va.1, va.2⟩] := ht
      rcases List.mem_append.1 ht' with ht' | ht'
      · exact h.2 t ht'
      · simp only [List.mem_singleton] at ht'
        subst ht'
        exact hl va (by simp)
  exact this _ hp r h

end

/-- C46. In every recording of every graph whose bodies record right clears (and register right clear actions), every clear command,
of an attachment or done on behalf of a disabled pass, is the one its image's format requires. -/
theorem clears_right (fmt : Nat → Nat) (env : Env) (G : GraphSt) (deps : List Ctx) (index : Nat → Nat)
    (passes : List RunPass) (hv : ∀ p ∈ passes, ∀ a ∈ p.images, ∀ v ∈ a.img.views, SameAspects fmt v)
    (ha : ∀ p ∈ passes, ∀ va ∈ p.implicitActions, ActionClears fmt va.2)
    (hb : ∀ p ∈ passes, ∀ i r, ClearsOk fmt r → ClearsOk fmt (p.body i r))
    (ini : Nat → Nat → Bool) (log : List Event) (G' : GraphSt) (f : Frame)
    (e : record env G deps index passes ini log = some (G', f)) : ∀ c ∈ f.recd.cmds, ClearOk fmt c := by
  have loop : ∀ (ps : List RunPass), (∀ p ∈ ps, p ∈ passes) → ∀ (f f' : Frame), ClearsOk fmt f.recd →
      recordLoop env G index ps f = some f' → ClearsOk fmt f'.recd := by
    intro ps
    induction ps with
    | nil => intro _ f f' h e; simp only [recordLoop, Option.some.injEq] at e; subst e; exact h
    | cons p next ih =>
      intro hs f f' h e
      have hp := hs p (by simp)
      unfold recordLoop at e
      simp only at e
      split at e
      · simp at e
      · rename_i f1 e1
        refine ih (fun x hx => hs x (by simp [hx])) f1 f' ?_ e
        have h0 : ClearsOk fmt { f.recd with ctx := announce env G p next f.recd.ctx } := by
          refine ⟨h.1, ?_⟩
          intro t ht
          rw [show (Rec.mk (announce env G p next f.recd.ctx) f.recd.cmds).ctx.implicit = f.recd.ctx.implicit from
            (announce_keeps env G p next f.recd.ctx).2] at ht
          exact h.2 t ht
        unfold recordInto at e1
        split at e1
        · split at e1
          · simp only at e1
            split at e1
            · simp at e1
            · rename_i r hr
              simp only [Option.some.injEq] at e1
              subst e1
              have hrec : (if (!f.initialised p.id (index p.id)) = true then
                  Frame.initialise ⟨⟨announce env G p next f.recd.ctx, f.recd.cmds⟩, f.initialised, f.log⟩ p (index p.id)
                  else ⟨⟨announce env G p next f.recd.ctx, f.recd.cmds⟩, f.initialised, f.log⟩).recd
                  = ⟨announce env G p next f.recd.ctx, f.recd.cmds⟩ := by split <;> rfl
              rw [hrec] at hr
              exact clearsOk_registerAll p (ha p hp) _ (hb p hp _ _ (clearsOk_prepare env G p _ (hv p hp) _ r h0 hr))
          · simp at e1
        · simp only [Option.some.injEq] at e1
          subst e1
          exact clearsOk_registerAll p (ha p hp) _ h0
  unfold record at e
  simp only at e
  split at e
  · simp at e
  · rename_i f1 e1
    simp only [Option.some.injEq, Prod.mk.injEq] at e
    obtain ⟨-, rfl⟩ := e
    refine (loop passes (fun _ h => h) _ f1 ⟨by simp, ?_⟩ e1).1
    intro t ht
    simp only at ht
    rw [(firstAnnounce_keeps env.sepDS passes (startCtx deps)).2, startCtx_implicit] at ht
    simp at ht

/-- Non-vacuity: a disabled pass whose depth buffer a substitute clears, used by the next one. -/
def dView : View := ⟨31, ⟨3, 126, 1, 1, 64, 64, 1⟩, .d2, 126, ⟨2, 0, 1, 0, 1⟩⟩
def dWriter : RunPass := ⟨1, 1, true, ⟨0, 0x800⟩, [], [], [(dView, .clear dView 0 5)], fun _ r => r⟩
def dReader : RunPass := ⟨2, 1, true, ⟨0, 0x800⟩, [ImageAdder.sampled.attach 2 0 [dView]], [], [], fun _ r => r⟩
example : SameAspects (fun _ => 126) dView ∧ ActionClears (fun _ => 126) (.clear dView 0 5)
    ∧ ((record ⟨false, fun i => i == 2⟩ xG [] (fun _ => 0) [dWriter, dReader] (fun _ _ => false) []).map
      fun x => x.2.recd.cmds.filterMap fun | .clearImage c i _ _ _ => some (c, i) | _ => none) = some [(false, 3)] := by
  refine ⟨rfl, rfl, by decide⟩

end Verif.Tables
