import Verif.Spec.Pipeline
/-
Lemmas about traces, descriptor lists and pool sizes.
-/
namespace Verif.Pipe
open Verif.Att

theorem upd_self {α : Type} (f : Nat → α) (k : Nat) (x : α) : upd f k x k = x := by simp [upd]
theorem upd_ne {α : Type} {f : Nat → α} {k i : Nat} {x : α} (h : i ≠ k) : upd f k x i = f i := by simp [upd, h]

theorem traceValid_append (d : Dev) (a b : List Ev) : TraceValid d (a ++ b) ↔ TraceValid d a ∧ TraceValid (after d a) b := by
  induction a generalizing d with
  | nil => simp [TraceValid, after]
  | cons e es ih =>
    simp only [List.cons_append, TraceValid, ih, and_assoc]
    simp [after]

theorem after_append (d : Dev) (a b : List Ev) : after d (a ++ b) = after (after d a) b := by
  simp [after, List.foldl_append]

/-! ### Pool sizes -/

theorem capacity_addSize (t : DescType) (n : Nat) (r : List (DescType × Nat)) (t' : DescType)
    (h : ∀ e ∈ r, e.2 + n < 4294967296) :
    capacity (addSize t n r) t' = capacity r t' + if t = t' then n else 0 := by
  induction r with
  | nil => simp only [addSize, capacity]; by_cases ht : t = t' <;> simp [ht]
  | cons e es ih =>
    have ih := ih fun x hx => h x (by simp [hx])
    have he := h e (by simp)
    simp only [addSize]
    split
    · next hte =>
      simp only [w32, Nat.mod_eq_of_lt he, capacity, List.filter_cons]
      by_cases ht : e.1 = t'
      · simp [ht, hte]; omega
      · simp [ht, hte]
    · simp only [capacity, List.filter_cons] at ih ⊢
      by_cases ht : e.1 = t'
      · simp only [ht, decide_true, ite_true, List.map_cons, List.sum_cons]; omega
      · simp only [ht, decide_false]
        simpa using ih

theorem addSize_le (t : DescType) (n m : Nat) (r : List (DescType × Nat)) (h : ∀ e ∈ r, e.2 ≤ m) (hb : m + n < 4294967296) :
    ∀ e ∈ addSize t n r, e.2 ≤ m + n := by
  induction r with
  | nil => intro e he; simp [addSize] at he; subst he; simp
  | cons x xs ih =>
    intro e he
    simp only [addSize] at he
    have hx := h x (by simp)
    split at he
    · rcases List.mem_cons.mp he with rfl | he
      · simp only [w32]
        rw [Nat.mod_eq_of_lt (by omega)]; omega
      · have := h e (by simp [he]); omega
    · rcases List.mem_cons.mp he with rfl | he
      · omega
      · exact ih (fun y hy => h y (by simp [hy])) e he

theorem sizes_fold (n : Nat) (bs : List Binding) : ∀ (r : List (DescType × Nat)) (m : Nat), (∀ e ∈ r, e.2 ≤ m) →
    m + bs.length * n < 4294967296 → ∀ t,
    capacity (bs.foldl (fun r b => addSize b.2 (w32 (1 * n)) r) r) t = capacity r t + n * countType bs t := by
  induction bs with
  | nil => intro r m _ _ t; simp [countType]
  | cons b bs ih =>
    intro r m hr hm t
    have hn : w32 (1 * n) = n := by
      simp only [w32, Nat.one_mul]
      apply Nat.mod_eq_of_lt
      simp only [List.length_cons, Nat.add_mul] at hm; omega
    simp only [List.length_cons, Nat.add_mul, Nat.one_mul] at hm
    simp only [List.foldl_cons]
    rw [ih _ (m + n) (by rw [hn]; exact addSize_le _ _ _ _ hr (by omega)) (by omega), hn,
      capacity_addSize _ _ _ _ (fun e he => by have := hr e he; omega)]
    simp only [countType, List.filter_cons]
    by_cases ht : b.2 = t
    · simp [ht, Nat.mul_add]; omega
    · simp [ht]

/-- The sizes of a pool hold the given number of sets, exactly. -/
theorem capacity_sizes (bs : List Binding) (n : Nat) (h : bs.length * n < 4294967296) (t : DescType) :
    capacity (getBindingsSizes bs n) t = n * countType bs t := by
  have := sizes_fold n bs [] 0 (by simp) (by omega) t
  simpa [getBindingsSizes, capacity] using this

/-! ### Descriptors -/

theorem view_pick (a : ImgAttach) (i : Nat) : a.view i = pick a.views i := by
  simp only [ImgAttach.view, pick]
  match a.views with
  | [] => simp
  | [x] => simp
  | x :: y :: l => simp

theorem buffer_pick (a : BufAttach) (i : Nat) : a.buffer i = pick a.buffers i := by
  simp only [BufAttach.buffer, pick]
  match a.buffers with
  | [] => simp
  | [x] => simp
  | x :: y :: l => simp

theorem image_bound (pass : Nat) (a : AddImage) :
    ((a.attach pass).isSampledView || (a.attach pass).isStorageView) = a.type.isSome ∧
    (∀ t, a.type = some t → (a.attach pass).descType = t) ∧ (a.type.isSome → (a.attach pass).binding = a.binding) := by
  obtain ⟨how, b, vs⟩ := a
  cases how <;> simp [AddImage.attach, AddImage.type, ImageAdder.attach, mkImage, Attachment.isSampledView,
    Attachment.isStorageView, Attachment.isImage, ImgAttach.isSampled, ImgAttach.isStorage, hasFlag, ImgFlag.sampled,
    ImgFlag.storage, ImgFlag.transfer, ImgFlag.depth, ImgFlag.transition, ImgFlag.depthStencil, ImgFlag.stencil,
    ImgFlag.stencilInput, ImgFlag.stencilOutput, ImgFlag.stencilInOut, Flag.image, Flag.input, Flag.output, Flag.inOut,
    Flag.clearable, LoadOp.load, LoadOp.dontCare, LoadOp.clear, StoreOp.store, StoreOp.dontCare,
    Attachment.descType, ImgAttach.descType]

theorem buffer_bound (pass : Nat) (a : AddBuffer) :
    (isUniformBuffer (a.attach pass) || (a.attach pass).isStorageBuffer || isUniformBufferView (a.attach pass) ||
      isStorageBufferView (a.attach pass)) = a.type.isSome ∧
    ((a.attach pass).isStorageBuffer || isUniformBuffer (a.attach pass)) = a.type.isSome ∧
    (∀ t, a.type = some t → (a.attach pass).descType = t) ∧ (a.type.isSome → (a.attach pass).binding = a.binding) := by
  obtain ⟨how, b, vs, v, o, z⟩ := a
  cases how <;> simp [AddBuffer.attach, AddBuffer.type, BufferAdder.attach, mkBuffer, isUniformBuffer,
    Attachment.isStorageBuffer, isUniformBufferView, isStorageBufferView, Attachment.isBuffer, BufAttach.isUniform,
    BufAttach.isStorage, BufAttach.isView, hasFlag, BufFlag.uniform, BufFlag.storage, BufFlag.transfer, BufFlag.view,
    BufFlag.transition, Flag.image, Flag.input, Flag.output, Flag.inOut, Flag.clearable, Flag.buffer,
    Attachment.descType, BufAttach.descType, Attachment.isImage]

theorem image_write (pass : Nat) (a : AddImage) (i : Nat) :
    imageWrite (a.attach pass) i = (if a.type.isSome then (a.descriptor i).map some else some none) := by
  obtain ⟨how, b, vs⟩ := a
  cases how <;> simp [imageWrite, AddImage.attach, AddImage.type, AddImage.descriptor, ImageAdder.attach, mkImage,
    Attachment.isSampledView, Function.comp_def,
    Attachment.isStorageView, Attachment.isImage, ImgAttach.isSampled, ImgAttach.isStorage, hasFlag, ImgFlag.sampled,
    ImgFlag.storage, ImgFlag.transfer, ImgFlag.depth, ImgFlag.transition, ImgFlag.depthStencil, ImgFlag.stencil,
    ImgFlag.stencilInput, ImgFlag.stencilOutput, ImgFlag.stencilInOut, Flag.image, Flag.input, Flag.output, Flag.inOut,
    Flag.clearable, LoadOp.load, LoadOp.dontCare, LoadOp.clear, StoreOp.store, StoreOp.dontCare, view_pick]

theorem buffer_write (pass : Nat) (a : AddBuffer) (i : Nat) (h : a.type.isSome) :
    bufferWrite (a.attach pass) i = a.descriptor i := by
  obtain ⟨how, b, vs, v, o, z⟩ := a
  cases how <;> simp [AddBuffer.type] at h <;> simp [bufferWrite, AddBuffer.descriptor, AddBuffer.attach,
    BufferAdder.attach, mkBuffer, buffer_pick, BufAttach.isUniform, BufAttach.descType,
    BufAttach.isStorage, BufAttach.isView, hasFlag, BufFlag.uniform, BufFlag.storage, BufFlag.transfer, BufFlag.view,
    BufFlag.transition]

theorem descriptor_type_image (a : AddImage) (i : Nat) (w : Write) (h : a.descriptor i = some w) :
    a.type = some w.type ∧ w.binding = a.binding ∧ Fits w.type w.resource := by
  obtain ⟨how, b, vs⟩ := a
  cases how <;> simp [AddImage.descriptor] at h <;> obtain ⟨v, -, rfl⟩ := h <;>
    simp [AddImage.type, Fits, Layout.shaderReadOnly, Layout.general]

theorem descriptor_type_buffer (a : AddBuffer) (i : Nat) (w : Write) (h : a.descriptor i = some w) :
    a.type = some w.type ∧ w.binding = a.binding ∧ Fits w.type w.resource := by
  obtain ⟨how, b, vs, v, o, z⟩ := a
  cases how <;> simp [AddBuffer.descriptor] at h <;> obtain ⟨v, -, rfl⟩ := h <;> simp [AddBuffer.type, Fits]

theorem fillBindings_promised (pass : Nat) (is : List AddImage) (bs : List AddBuffer) :
    fillBindings (is.map (·.attach pass)) (bs.map (·.attach pass)) = promised is bs := by
  simp only [fillBindings, promised]
  congr 1
  · induction is with
    | nil => rfl
    | cons a is ih =>
      obtain ⟨h1, h2, h3⟩ := image_bound pass a
      rw [List.map_cons, List.filter_cons, h1, List.filterMap_cons]
      cases ht : a.type with
      | none => simpa using ih
      | some t => simp [ih, h2 t ht, h3 (by simp [ht])]
  · induction bs with
    | nil => rfl
    | cons a is ih =>
      obtain ⟨h1, -, h2, h3⟩ := buffer_bound pass a
      rw [List.map_cons, List.filter_cons, h1, List.filterMap_cons]
      cases ht : a.type with
      | none => simpa using ih
      | some t => simp [ih, h2 t ht, h3 (by simp [ht])]

theorem images_write (pass i : Nat) (is : List AddImage) : ∀ ws, (is.map (·.attach pass)).mapM (imageWrite · i) = some ws →
    ws.filterMap id = is.filterMap (·.descriptor i) ∧
    (ws.filterMap id).map (fun w => (w.binding, w.type)) = is.filterMap (fun a => a.type.map fun t => (a.binding, t)) := by
  induction is with
  | nil => intro ws h; simp at h; subst h; simp
  | cons a is ih =>
    intro ws h
    rw [List.map_cons, List.mapM_cons, image_write] at h
    simp only [Option.bind_eq_bind, Option.bind_eq_some_iff] at h
    obtain ⟨x, hx, xs, hxs, h⟩ := h
    have h : x :: xs = ws := by simpa using h
    subst h
    obtain ⟨i1, i2⟩ := ih xs hxs
    rw [List.filterMap_cons, List.filterMap_cons, List.filterMap_cons]
    cases ht : a.type with
    | none =>
      rw [ht] at hx; simp at hx; subst hx
      have : a.descriptor i = none := by
        cases hd : a.descriptor i with
        | none => rfl
        | some w => have := (descriptor_type_image a i w hd).1; rw [ht] at this; cases this
      simp [this, i1, ← i2]
    | some t =>
      rw [ht] at hx
      simp only [Option.isSome_some, ite_true, Option.map_eq_some_iff] at hx
      obtain ⟨w, hw, rfl⟩ := hx
      obtain ⟨e1, e2, -⟩ := descriptor_type_image a i w hw
      rw [ht] at e1
      simp only [Option.some.injEq] at e1
      simp only [hw, Option.map_some, id]
      simp [i1, ← i2, e1, e2]

theorem buffers_write (pass i : Nat) (is : List AddBuffer) : ∀ ws,
    ((is.map (·.attach pass)).filter fun a => a.isStorageBuffer || isUniformBuffer a).mapM (bufferWrite · i) = some ws →
    ws = is.filterMap (·.descriptor i) ∧
    ws.map (fun w => (w.binding, w.type)) = is.filterMap (fun a => a.type.map fun t => (a.binding, t)) := by
  induction is with
  | nil => intro ws h; simp at h; subst h; simp
  | cons a is ih =>
    intro ws h
    rw [List.map_cons, List.filter_cons, (buffer_bound pass a).2.1] at h
    rw [List.filterMap_cons, List.filterMap_cons]
    cases ht : a.type with
    | none =>
      rw [ht] at h
      obtain ⟨i1, i2⟩ := ih ws (by simpa using h)
      have : a.descriptor i = none := by
        cases hd : a.descriptor i with
        | none => rfl
        | some w => have := (descriptor_type_buffer a i w hd).1; rw [ht] at this; cases this
      simp only [this, Option.map_none]
      exact ⟨i1, i2⟩
    | some t =>
      rw [ht] at h
      simp only [Option.isSome_some, ite_true] at h
      rw [List.mapM_cons, buffer_write _ _ _ (by simp [ht])] at h
      simp only [Option.bind_eq_bind, Option.bind_eq_some_iff] at h
      obtain ⟨w, hw, xs, hxs, h⟩ := h
      have h : w :: xs = ws := by simpa using h
      subst h
      obtain ⟨i1, i2⟩ := ih xs hxs
      obtain ⟨e1, e2, -⟩ := descriptor_type_buffer a i w hw
      rw [ht] at e1
      simp only [Option.some.injEq] at e1
      simp only [hw, Option.map_some]
      simp [← i1, ← i2, e1, e2]

/-- The writes of a set are the promised descriptors, one for each binding. -/
theorem fillWrites_promised (pass i : Nat) (is : List AddImage) (bs : List AddBuffer) (ws : List Write)
    (h : fillWrites (is.map (·.attach pass)) (bs.map (·.attach pass)) i = some ws) :
    ws = descriptors is bs i ∧ ws.map (fun w => (w.binding, w.type)) = promised is bs := by
  simp only [fillWrites, Option.bind_eq_bind, Option.bind_eq_some_iff] at h
  obtain ⟨a, ha, b, hb, h⟩ := h
  have h : a.filterMap id ++ b = ws := by simpa using h
  subst h
  obtain ⟨h1, h2⟩ := images_write pass i is a ha
  obtain ⟨h3, h4⟩ := buffers_write pass i bs b hb
  constructor
  · rw [descriptors, ← h1, ← h3]
  · rw [promised, List.map_append, ← h2, ← h4]

theorem descriptors_fit (is : List AddImage) (bs : List AddBuffer) (i : Nat) :
    ∀ w ∈ descriptors is bs i, Fits w.type w.resource := by
  intro w hw
  simp only [descriptors, List.mem_append, List.mem_filterMap] at hw
  rcases hw with ⟨a, -, h⟩ | ⟨a, -, h⟩
  · exact (descriptor_type_image a i w h).2.2
  · exact (descriptor_type_buffer a i w h).2.2

/-- With different binding numbers, each binding is written once. -/
theorem written_once (ws : List Write) (hn : ((ws.map fun w => (w.binding, w.type)).map (·.1)).Nodup) :
    ∀ b ∈ ws.map (fun w => (w.binding, w.type)),
      (ws.filter fun w => w.binding = b.1).map (fun w => (w.binding, w.type)) = [b] := by
  induction ws with
  | nil => simp
  | cons w ws ih =>
    simp only [List.map_cons, List.nodup_cons] at hn
    intro b hb
    simp only [List.map_cons, List.mem_cons] at hb
    rw [List.filter_cons]
    rcases hb with rfl | hb
    · simp only [decide_true, ite_true, List.map_cons, List.cons.injEq, true_and]
      have : ws.filter (fun w' => decide (w'.binding = w.binding)) = [] := by
        rw [List.filter_eq_nil_iff]
        intro x hx
        simp only [decide_eq_true_eq]
        intro e
        apply hn.1
        simp only [List.map_map, List.mem_map]
        exact ⟨x, hx, e⟩
      simp [this]
    · have : w.binding ≠ b.1 := by
        intro e
        apply hn.1
        rw [e]
        exact List.mem_map.mpr ⟨b, hb, rfl⟩
      simp only [this, decide_false]
      exact ih hn.2 b hb

end Verif.Pipe
