import Verif.Spec.Attachment
/-
C36: attachments created by the `FramePass::add…` methods.
-/
namespace Verif.Att

/-- Unfolds an attachment down to its numeric flags. -/
macro "attsimp" : tactic => `(tactic| simp (config := { decide := true }) [within, readBits, writeBits, stageAccesses, layoutAccesses, ImageAdder.attach, BufferAdder.attach, mkImage, mkBuffer, Attachment.isImage, Attachment.isBuffer, Attachment.isInput, Attachment.isOutput, Attachment.getAccessMask, Attachment.getPipelineStageFlags, Attachment.getImageLayout,
 ImgAttach.getAccessMask, ImgAttach.getPipelineStageFlags, ImgAttach.getImageLayout, BufAttach.getAccessMask, BufAttach.getPipelineStageFlags,
 ImgAttach.isSampled, ImgAttach.isStorage, ImgAttach.isTransfer, ImgAttach.isTransition, ImgAttach.isDepth, ImgAttach.isStencil, ImgAttach.isDepthStencil, ImgAttach.isColour, ImgAttach.isStencilInput, ImgAttach.isStencilOutput,
 BufAttach.isUniform, BufAttach.isStorage, BufAttach.isTransfer, BufAttach.isTransition, BufAttach.isView,
 ImgFlag.sampled, ImgFlag.storage, ImgFlag.transfer, ImgFlag.depth, ImgFlag.stencil, ImgFlag.stencilClearing, ImgFlag.stencilInput, ImgFlag.stencilOutput, ImgFlag.transition, ImgFlag.depthStencil, ImgFlag.stencilInOut,
 BufFlag.uniform, BufFlag.storage, BufFlag.transfer, BufFlag.view, BufFlag.transition, Flag.inOut, Flag.buffer, Flag.noTransition, Flag.clearable,
 hasFlag, LoadOp.load, LoadOp.clear, LoadOp.dontCare, StoreOp.store, StoreOp.dontCare, Flag.input, Flag.output, Flag.image, Dir.writes, Dir.reads])

/-- Unfolds every constant. -/
macro "attfull" : tactic => `(tactic| (attsimp <;> (try decide)))

theorem hasFlag_or (a f b : Nat) (h : a &&& b = b) : hasFlag (a ||| f) b = true := by
  unfold hasFlag
  rw [beq_iff_eq]
  apply Nat.eq_of_testBit_eq
  intro i
  have := congrArg (fun x => x.testBit i) h
  simp at this ⊢
  cases hb : b.testBit i <;> simp_all

theorem or_assoc3 (a f c : Nat) : a ||| f ||| c = a ||| c ||| f := by
  rw [Nat.or_assoc, Nat.or_comm f c, ← Nat.or_assoc]

theorem transferInOut_flags (f p b : Nat) (vs : List View) :
    ((ImageAdder.transferInOut f).attach p b vs).flags = 7 ||| f := by
  show (Flag.inOut ||| f) ||| Flag.image ||| 0 ||| 0 ||| 0 ||| 0 = 7 ||| f
  rw [Nat.or_zero, Nat.or_zero, Nat.or_zero, Nat.or_zero, or_assoc3]
  rfl

theorem transferInOut_buffer_flags (f p b : Nat) (bs : List Nat) (v o s : Nat) :
    ((BufferAdder.transferInOut f).attach p b bs v o s).flags = 11 ||| f := by
  show (Flag.inOut ||| f) ||| Flag.buffer = 11 ||| f
  rw [or_assoc3]
  rfl

/-- C36. Image methods create image attachments with the direction they announce. -/
theorem image_direction (m : ImageAdder) (d : Dir) (hd : m.dir = some d) (p b : Nat) (vs : List View) :
    (m.attach p b vs).isImage = true ∧ (m.attach p b vs).isInput = d.reads
    ∧ (m.attach p b vs).isOutput = d.writes ∧ (m.attach p b vs).img.views = vs
    ∧ (m.attach p b vs).pass = p := by
  cases m
  case transferInOut f =>
    simp [ImageAdder.dir] at hd
    subst hd
    unfold Attachment.isImage Attachment.isInput Attachment.isOutput
    rw [transferInOut_flags]
    exact ⟨hasFlag_or _ _ _ rfl, hasFlag_or _ _ _ rfl, hasFlag_or _ _ _ rfl, rfl, rfl⟩
  all_goals first
    | (simp [ImageAdder.dir] at hd; subst hd; attfull)
    | simp [ImageAdder.dir] at hd

/-- C36. Buffer methods create buffer attachments with the direction they announce. -/
theorem buffer_direction (m : BufferAdder) (d : Dir) (hd : m.dir = some d) (p b : Nat) (bs : List Nat)
    (v o s : Nat) :
    (m.attach p b bs v o s).isBuffer = true ∧ (m.attach p b bs v o s).isInput = d.reads
    ∧ (m.attach p b bs v o s).isOutput = d.writes ∧ (m.attach p b bs v o s).buf.buffers = bs
    ∧ (m.attach p b bs v o s).buf.offset = o ∧ (m.attach p b bs v o s).buf.size = s := by
  cases m
  case transferInOut f =>
    simp [BufferAdder.dir] at hd
    subst hd
    unfold Attachment.isBuffer Attachment.isInput Attachment.isOutput
    rw [transferInOut_buffer_flags]
    exact ⟨hasFlag_or _ _ _ rfl, hasFlag_or _ _ _ rfl, hasFlag_or _ _ _ rfl, rfl, rfl, rfl⟩
  all_goals first
    | (simp [BufferAdder.dir] at hd; subst hd; attfull)
    | simp [BufferAdder.dir] at hd

/-- C36. The access mask of an image attachment contains a write exactly when it is an output and a read exactly
when it is an input, and only accesses of the stage derived for it. -/
theorem image_access_matches (m : ImageAdder) (d : Dir) (hd : m.dir = some d) (p b : Nat) (vs : List View)
    (compute : Bool) :
    ((m.attach p b vs).getAccessMask &&& writeBits != 0) = d.writes
    ∧ ((m.attach p b vs).getAccessMask &&& readBits != 0) = d.reads
    ∧ within (m.attach p b vs).getAccessMask
        (stageAccesses ((m.attach p b vs).getPipelineStageFlags compute)) = true := by
  cases m
  case transferInOut f =>
    have hdir := image_direction (.transferInOut f) d hd p b vs
    simp [ImageAdder.dir] at hd
    subst hd
    unfold Attachment.getAccessMask Attachment.getPipelineStageFlags
    rw [if_pos hdir.1, if_pos hdir.1, hdir.2.1, hdir.2.2.1]
    cases compute <;> attfull
  all_goals first
    | (simp [ImageAdder.dir] at hd; subst hd; cases compute <;> attfull)
    | simp [ImageAdder.dir] at hd

/-- C36. The same for buffers. -/
theorem buffer_access_matches (m : BufferAdder) (d : Dir) (hd : m.dir = some d) (p b : Nat) (bs : List Nat)
    (v o s : Nat) (compute : Bool) :
    ((m.attach p b bs v o s).getAccessMask &&& writeBits != 0) = d.writes
    ∧ ((m.attach p b bs v o s).getAccessMask &&& readBits != 0) = d.reads
    ∧ within (m.attach p b bs v o s).getAccessMask
        (stageAccesses ((m.attach p b bs v o s).getPipelineStageFlags compute)) = true := by
  cases m
  case transferInOut f =>
    have hdir := buffer_direction (.transferInOut f) d hd p b bs v o s
    simp [BufferAdder.dir] at hd
    subst hd
    have hni : ((BufferAdder.transferInOut f).attach p b bs v o s).isImage = hasFlag (11 ||| f) 4 := by
      unfold Attachment.isImage; rw [transferInOut_buffer_flags]; rfl
    unfold Attachment.getAccessMask Attachment.getPipelineStageFlags
    by_cases hi : ((BufferAdder.transferInOut f).attach p b bs v o s).isImage = true
    · -- a caller may pass the `Image` flag itself; the (default) image attachment is then consulted
      rw [if_pos hi, if_pos hi, hdir.2.1, hdir.2.2.1]
      cases compute <;> attfull
    · rw [if_neg hi, if_neg hi, hdir.2.1, hdir.2.2.1]
      cases compute <;> attfull
  all_goals first
    | (simp [BufferAdder.dir] at hd; subst hd; cases compute <;> attfull)
    | simp [BufferAdder.dir] at hd

/-- C36 (partial: not for `addTransferInOutView`, see `transfer_inout_layout_wrong`). The layout derived for an
image attachment allows every access derived for it. -/
theorem image_layout_allows_partial (m : ImageAdder) (d : Dir) (hd : m.dir = some d)
    (hm : ∀ f, m ≠ .transferInOut f) (p b : Nat) (vs : List View) (sepDS : Bool) :
    within (m.attach p b vs).getAccessMask (layoutAccesses ((m.attach p b vs).getImageLayout sepDS)) = true := by
  cases m
  case transferInOut f => exact absurd rfl (hm f)
  case implicitColour => simp [ImageAdder.dir] at hd
  case implicitDepth => simp [ImageAdder.dir] at hd
  case implicitDepthStencil => simp [ImageAdder.dir] at hd
  all_goals cases sepDS <;> attfull

/-- C36 is false for `addTransferInOutView`: it is read, yet its layout (TRANSFER_DST) doesn't allow reads. -/
theorem transfer_inout_layout_wrong (f p b : Nat) (vs : List View) (sepDS : Bool) :
    ((ImageAdder.transferInOut f).attach p b vs).isInput = true
    ∧ ((ImageAdder.transferInOut f).attach p b vs).getAccessMask &&& Access.transferRead ≠ 0
    ∧ layoutAccesses (((ImageAdder.transferInOut f).attach p b vs).getImageLayout sepDS) &&& readBits = 0 := by
  have hdir := image_direction (.transferInOut f) .inOut rfl p b vs
  refine ⟨hdir.2.1, ?_, ?_⟩
  · unfold Attachment.getAccessMask
    rw [if_pos hdir.1, hdir.2.1, hdir.2.2.1]
    attfull
  · unfold Attachment.getImageLayout
    rw [hdir.2.1, hdir.2.2.1]
    attfull

/-- C36. Implicit attachments take the layout they were given, whatever the separate depth/stencil support, with
the masks of that layout. -/
theorem implicit_attachment (l p b : Nat) (vs : List View) (sepDS compute : Bool) (m : ImageAdder)
    (hm : m = .implicitColour l ∨ m = .implicitDepth l ∨ m = .implicitDepthStencil l) :
    (m.attach p b vs).getImageLayout sepDS = l
    ∧ (m.attach p b vs).getAccessMask = Verif.getAccessMask l
    ∧ (m.attach p b vs).getPipelineStageFlags compute = getStageMask l := by
  rcases hm with rfl | rfl | rfl <;> attfull

/-- C36. The masks derived from a layout alone agree with each other: the stage can make the accesses, and the
layout allows them. Holds for every number, hence every `VkImageLayout`. -/
theorem layout_masks_agree (l : Nat) :
    within (Verif.getAccessMask l) (stageAccesses (getStageMask l)) = true
    ∧ within (Verif.getAccessMask l) (layoutAccesses l) = true := by
  unfold Verif.getAccessMask getStageMask
  by_cases h1 : l = Layout.presentSrc
  · subst h1; decide
  by_cases h2 : l = Layout.sharedPresent
  · subst h2; decide
  by_cases h3 : l = Layout.colorAttachment
  · subst h3; decide
  by_cases h4 : l = Layout.depthStencilAttachment
  · subst h4; decide
  by_cases h5 : l = Layout.depthStencilReadOnly
  · subst h5; decide
  by_cases h6 : l = Layout.shaderReadOnly
  · subst h6; decide
  by_cases h7 : l = Layout.transferSrc
  · subst h7; decide
  by_cases h8 : l = Layout.transferDst
  · subst h8; decide
  by_cases h9 : l = Layout.depthReadOnlyStencilAttachment
  · subst h9; decide
  by_cases h10 : l = Layout.depthAttachmentStencilReadOnly
  · subst h10; decide
  by_cases h11 : l = Layout.shadingRate
  · subst h11; decide
  by_cases h12 : l = Layout.fragmentDensityMap
  · subst h12; decide
  · simp [h1, h2, h3, h4, h5, h6, h7, h8, h9, h10, h11, h12, within]

/-- C36. Layouts made for one use have the masks of that use: an access, and a write exactly if the layout is made for writing. The others
(undefined, general, preinitialised, the separate depth and stencil ones) have none. -/
theorem layout_masks_cover (l : Nat) :
    (Verif.getAccessMask l ≠ 0 ↔ l ∈ [Layout.presentSrc, Layout.sharedPresent, Layout.colorAttachment, Layout.depthStencilAttachment,
      Layout.depthStencilReadOnly, Layout.shaderReadOnly, Layout.transferSrc, Layout.transferDst, Layout.depthReadOnlyStencilAttachment,
      Layout.depthAttachmentStencilReadOnly, Layout.shadingRate, Layout.fragmentDensityMap])
    ∧ (Verif.getAccessMask l &&& writeBits ≠ 0 ↔ l ∈ [Layout.colorAttachment, Layout.depthStencilAttachment, Layout.transferDst,
      Layout.depthReadOnlyStencilAttachment, Layout.depthAttachmentStencilReadOnly])
    ∧ (Verif.getAccessMask l ≠ 0 → getStageMask l ≠ 0) := by
  by_cases h : l ∈ [Layout.presentSrc, Layout.sharedPresent, Layout.colorAttachment, Layout.depthStencilAttachment,
      Layout.depthStencilReadOnly, Layout.shaderReadOnly, Layout.transferSrc, Layout.transferDst, Layout.depthReadOnlyStencilAttachment,
      Layout.depthAttachmentStencilReadOnly, Layout.shadingRate, Layout.fragmentDensityMap]
  · simp only [List.mem_cons, List.not_mem_nil, or_false] at h
    rcases h with rfl | rfl | rfl | rfl | rfl | rfl | rfl | rfl | rfl | rfl | rfl | rfl <;> decide
  · have hm : Verif.getAccessMask l = 0 := by
      simp only [List.mem_cons, List.not_mem_nil, or_false, not_or] at h
      simp [Verif.getAccessMask, h]
    refine ⟨by simp [hm, h], ?_, by simp [hm]⟩
    simp only [hm, Nat.zero_and]
    simp only [List.mem_cons, List.not_mem_nil, or_false, not_or] at h ⊢
    simp [h]

/-- C36 is false for sampled views of compute passes: the stage derived is the fragment shader. -/
theorem sampled_in_compute_stage_wrong (p b : Nat) (vs : List View) :
    (ImageAdder.sampled.attach p b vs).getPipelineStageFlags true = Stage.fragmentShader := by
  attfull

/-- C36 is false for separate depth/stencil layouts: a writable depth layout yields no access and no stage at
all (a stage mask of 0 is not a valid barrier stage). -/
theorem separate_layout_masks_empty :
    ∀ l ∈ [Layout.depthAttachment, Layout.depthReadOnly, Layout.stencilAttachment, Layout.stencilReadOnly],
      (makeLayoutState l).state = ⟨0, 0⟩ := by decide

/-- C36: the pipeline state derived from shader stages never contains the shader write, although these stages
can write. -/
theorem pipeline_state_omits_shader_write (flags : Nat) :
    (getPipelineState flags).access &&& Access.shaderWrite = 0 := by
  unfold getPipelineState
  simp only
  repeat' split
  all_goals decide

/-- C36: apart from shader writes, the pipeline state of a stage mask has all the accesses its listed stages can
make on attachments and transfers. -/
theorem pipeline_state_covers (flags : Nat) :
    (flags &&& Stage.colorAttachmentOutput = Stage.colorAttachmentOutput →
      within (Access.colorRead ||| Access.colorWrite) (getPipelineState flags).access = true)
    ∧ (flags &&& Stage.lateFragmentTests = Stage.lateFragmentTests →
      within (Access.depthStencilRead ||| Access.depthStencilWrite) (getPipelineState flags).access = true)
    ∧ (flags &&& Stage.transfer = Stage.transfer →
      within (Access.transferRead ||| Access.transferWrite) (getPipelineState flags).access = true)
    ∧ (flags &&& Stage.fragmentShader = Stage.fragmentShader ∨ flags &&& Stage.computeShader = Stage.computeShader →
      within Access.shaderRead (getPipelineState flags).access = true)
    ∧ (getPipelineState flags).stage = flags := by
  unfold getPipelineState
  simp only [beq_iff_eq]
  refine ⟨?_, ?_, ?_, ?_, trivial⟩
  · intro h; rw [if_pos h]; repeat' split
    all_goals decide
  · intro h; rw [if_pos h]; repeat' split
    all_goals decide
  · intro h; rw [if_pos h]; repeat' split
    all_goals decide
  · rintro (h | h) <;> rw [if_pos h] <;> repeat' split
    all_goals decide

/-! Non-vacuity: a compute pass with an InOut storage image and an output transfer buffer. -/
example : ImageAdder.inOutStorage.dir = some .inOut
    ∧ (ImageAdder.inOutStorage.attach 3 7 []).getAccessMask
      = Access.shaderRead ||| Access.shaderWrite := by
  refine ⟨rfl, ?_⟩
  attfull
example : BufferAdder.transferOutput.dir = some .output
    ∧ (BufferAdder.transferOutput.attach 3 7 [5] 0 16 64).getAccessMask = Access.transferWrite := by
  refine ⟨rfl, ?_⟩
  attfull
example : Layout.depthStencilReadOnly ≠ 0
    ∧ (ImageAdder.implicitDepth Layout.depthStencilReadOnly).dir = none := by decide

/-- C36, for any combination of flags: an image attachment not declared as an output, which is no colour attachment, no
storage image and doesn't impose a layout, gets a layout that allows no write; one not declared as an input gets one that allows
no transfer read. -/
theorem layout_follows_direction (a : Attachment) (sepDS : Bool) (ht : a.img.isTransition = false ∨ a.img.isSampled = true)
    (hs : a.img.isStorage = false ∨ a.img.isSampled = true) (hc : a.img.isColour = false) :
    (a.isOutput = false → layoutAccesses (a.getImageLayout sepDS) &&& writeBits = 0)
    ∧ (a.isInput = false → layoutAccesses (a.getImageLayout sepDS) &&& Access.transferRead = 0)
    ∧ (a.isOutput = true → a.img.isSampled = false →
        a.img.isTransfer = true ∨ a.img.isDepth = true ∨ (a.img.isStencil = true ∧ a.img.isStencilOutput = true) →
        layoutAccesses (a.getImageLayout sepDS) &&& writeBits ≠ 0) := by
  unfold Attachment.getImageLayout ImgAttach.getImageLayout ImgAttach.isDepthStencil
  generalize a.isOutput = o
  generalize a.isInput = i
  generalize a.img.isSampled = sa at *
  generalize a.img.isTransition = tr at *
  generalize a.img.isStorage = st at *
  generalize a.img.isTransfer = tf at *
  generalize a.img.isColour = co at *
  generalize a.img.isDepth = de at *
  generalize a.img.isStencil = sn at *
  generalize a.img.isStencilInput = si at *
  generalize a.img.isStencilOutput = so at *
  subst hc
  generalize a.img.wantedLayout = w
  cases sa
  · simp only [Bool.false_eq_true, or_false] at ht hs
    subst ht hs
    simp only [Bool.false_eq_true, if_false]
    revert o i tf de sn si so sepDS
    decide +kernel
  · simp only [if_true]
    exact ⟨fun _ => by decide, fun _ => by decide, fun _ h => by cases h⟩

/-- Every flag is a bit of its own. -/
theorem flags_are_bits :
    [ImgFlag.sampled, ImgFlag.storage, ImgFlag.transfer, ImgFlag.depth, ImgFlag.stencil, ImgFlag.stencilClearing,
      ImgFlag.stencilInput, ImgFlag.stencilOutput, ImgFlag.transition] = (List.range 9).map (2 ^ ·)
    ∧ [BufFlag.uniform, BufFlag.storage, BufFlag.transfer, BufFlag.view, BufFlag.transition] = (List.range 5).map (2 ^ ·)
    ∧ [Flag.input, Flag.output, Flag.image, Flag.buffer, Flag.noTransition, Flag.clearable] = (List.range 6).map (2 ^ ·)
    ∧ ImgFlag.depthStencil = ImgFlag.depth ||| ImgFlag.stencil ∧ ImgFlag.stencilInOut = ImgFlag.stencilInput ||| ImgFlag.stencilOutput
    ∧ Flag.inOut = Flag.input ||| Flag.output := by
  decide

/-- C36. Implicit attachments only read. -/
theorem implicit_direction :
    (∀ (m : ImageAdder) (p b : Nat) (vs : List View), m.dir = none →
      (m.attach p b vs).isImage = true ∧ (m.attach p b vs).isInput = true ∧ (m.attach p b vs).isOutput = false)
    ∧ ∀ (m : BufferAdder) (p b : Nat) (bs : List Nat) (v o s : Nat), m.dir = none →
      (m.attach p b bs v o s).isBuffer = true ∧ (m.attach p b bs v o s).isInput = true
      ∧ (m.attach p b bs v o s).isOutput = false := by
  refine ⟨?_, ?_⟩
  · intro m p b vs hm
    cases m <;> first | (simp [ImageAdder.dir] at hm; done) | attfull
  · intro m p b bs v o s hm
    cases m <;> first | (simp [BufferAdder.dir] at hm; done) | attfull

/-! ### What each method does with its arguments -/

/-- Where a shader sees the attachment: the given binding for what descriptors refer to, 0 for targets, none otherwise. -/
def ImageAdder.boundAt (m : ImageAdder) (binding : Nat) : Nat := match m with
  | .sampled | .inputStorage | .outputStorage | .clearableOutputStorage | .inOutStorage => binding
  | .implicitColour _ | .implicitDepth _ | .implicitDepthStencil _ | .transferInput | .transferOutput | .transferInOut _ =>
    2 ^ 32 - 1
  | _ => 0

/-- The methods that take a clear value: targets that are only written. -/
def ImageAdder.takesClear : ImageAdder → Bool
  | .outputColour | .outputDepth | .outputDepthStencil | .outputStencil => true
  | _ => false

/-- C36. Every image method keeps the pass, the views, the binding if it has one, the clear value if it takes one, the
blend state for in-out colour attachments, and the layout imposed by implicit attachments. -/
theorem image_fields (m : ImageAdder) (p b : Nat) (vs : List View) (clear blend : Nat) :
    (m.attach p b vs clear blend).pass = p ∧ (m.attach p b vs clear blend).binding = m.boundAt b
    ∧ (m.attach p b vs clear blend).img.views = vs
    ∧ (m.attach p b vs clear blend).img.clearValue = (if m.takesClear then clear else 0)
    ∧ (m.attach p b vs clear blend).img.blend = (if m = .inOutColour then blend else 0)
    ∧ (∀ l, m = .implicitColour l ∨ m = .implicitDepth l ∨ m = .implicitDepthStencil l →
        (m.attach p b vs clear blend).img.wantedLayout = l)
    ∧ (m.attach p b vs clear blend).buf = {} := by
  cases m <;> (refine ⟨rfl, rfl, rfl, rfl, rfl, ?_, rfl⟩; intro l hl; simp at hl; try (subst hl; rfl))

/-- The methods that declare a buffer view. -/
def BufferAdder.isView : BufferAdder → Bool
  | .implicitView _ | .uniformView | .inputStorageView | .outputStorageView | .clearableOutputStorageView
  | .inOutStorageView => true
  | _ => false

def BufferAdder.boundAt (m : BufferAdder) (binding : Nat) : Nat := match m with
  | .implicit _ | .implicitView _ | .transferInput | .transferOutput | .transferInOut _ => 2 ^ 32 - 1
  | _ => binding

/-- C36. Every buffer method keeps the pass, the buffers, the range, the binding if it has one, the view if it declares
one, and the state imposed by implicit attachments. -/
theorem buffer_fields (m : BufferAdder) (p b : Nat) (bs : List Nat) (v o s : Nat) :
    (m.attach p b bs v o s).pass = p ∧ (m.attach p b bs v o s).binding = m.boundAt b
    ∧ (m.attach p b bs v o s).buf.buffers = bs ∧ (m.attach p b bs v o s).buf.offset = o
    ∧ (m.attach p b bs v o s).buf.size = s
    ∧ (m.attach p b bs v o s).buf.bufferView = (if m.isView then v else 0)
    ∧ (m.attach p b bs v o s).buf.isView = m.isView
    ∧ (∀ w, m = .implicit w ∨ m = .implicitView w → (m.attach p b bs v o s).buf.wantedAccess = w)
    ∧ (m.attach p b bs v o s).img = {} := by
  cases m <;> (refine ⟨rfl, rfl, rfl, rfl, rfl, rfl, by simp only [BufferAdder.isView]; attfull, ?_, rfl⟩; intro l hl; simp at hl; try (subst hl; rfl))

end Verif.Att
