import Verif.Model.Pipeline
/-
The specification side of the program pass properties: a device as far as descriptor and pipeline objects are
concerned, and what the `add…` calls of a pass promise for its descriptors. It knows the events of a trace, nothing of
the holder that produced them.
-/
namespace Verif.Pipe
open Verif.Att

/-- A descriptor pool: how many sets, and how many descriptors of each type, are left. -/
structure Pool where
  sets : Nat
  room : DescType → Nat

/-- A descriptor set: its pool, its bindings, what was written. -/
structure DSet where
  pool : Nat
  bindings : List Binding
  writes : List Write

structure Pipeline where
  program : Nat
  renderPass : Nat
  layout : Nat

/-- The live objects, by handle. -/
structure Dev where
  setLayouts : Nat → Option (List Binding)
  pipeLayouts : Nat → Option Nat
  pools : Nat → Option Pool
  sets : Nat → Option DSet
  pipes : Nat → Option Pipeline

def Dev.empty : Dev := ⟨fun _ => none, fun _ => none, fun _ => none, fun _ => none, fun _ => none⟩

/-- Update of a map. -/
def upd {α : Type} (f : Nat → α) (k : Nat) (x : α) : Nat → α := fun i => if i = k then x else f i

/-- Descriptors of a type in a pool's sizes: all the entries of the type count (VkDescriptorPoolCreateInfo). -/
def capacity (sizes : List (DescType × Nat)) (t : DescType) : Nat :=
  ((sizes.filter fun e => e.1 = t).map (·.2)).sum

/-- Bindings of a type. -/
def countType (bs : List Binding) (t : DescType) : Nat := (bs.filter fun b => b.2 = t).length

/-- Effect of a call. -/
def step (d : Dev) : Ev → Dev
  | .createSetLayout h bs => { d with setLayouts := upd d.setLayouts h (some bs) }
  | .destroySetLayout h => { d with setLayouts := upd d.setLayouts h none }
  | .createPipeLayout h sl => { d with pipeLayouts := upd d.pipeLayouts h (some sl) }
  | .destroyPipeLayout h => { d with pipeLayouts := upd d.pipeLayouts h none }
  | .createPool h n sizes => { d with pools := upd d.pools h (some ⟨n, capacity sizes⟩) }
  | .destroyPool h =>
    { d with pools := upd d.pools h none
             sets := fun s => (d.sets s).bind fun D => if D.pool = h then none else some D }
  | .alloc p h sl =>
    match d.pools p, d.setLayouts sl with
    | some P, some bs =>
      { d with pools := upd d.pools p (some ⟨P.sets - 1, fun t => P.room t - countType bs t⟩)
               sets := upd d.sets h (some ⟨p, bs, []⟩) }
    | _, _ => d
  | .write h w =>
    match d.sets h with
    | some D => { d with sets := upd d.sets h (some { D with writes := D.writes ++ [w] }) }
    | none => d
  | .createPipe h prog rp l => { d with pipes := upd d.pipes h (some ⟨prog, rp, l⟩) }
  | .destroyPipe h => { d with pipes := upd d.pipes h none }
  | .bind .. => d

/-- A descriptor of the type is this sort of resource, and images are named in the layout the type requires. -/
def Fits : DescType → Resource → Prop
  | .combinedImageSampler, .image _ l => l = Layout.shaderReadOnly ∨ l = Layout.general
  | .storageImage, .image _ l => l = Layout.general
  | .uniformTexelBuffer, .texel _ | .storageTexelBuffer, .texel _ => True
  | .uniformBuffer, .buffer .. | .storageBuffer, .buffer .. => True
  | _, _ => False

/-- What Vulkan requires of a call, given the live objects: an object is created under a handle not in use, destroyed
and used only while it lives; an allocation finds a set and, for each type, enough descriptors left in the pool; a
write fits a binding of the set; a bind finds each binding of the set written exactly once, and a pipeline made with
the same pipeline layout. -/
def Valid (d : Dev) : Ev → Prop
  | .createSetLayout h bs => h ≠ 0 ∧ d.setLayouts h = none ∧ (bs.map (·.1)).Nodup
  | .destroySetLayout h => d.setLayouts h ≠ none
  | .createPipeLayout h sl => h ≠ 0 ∧ d.pipeLayouts h = none ∧ d.setLayouts sl ≠ none
  | .destroyPipeLayout h => d.pipeLayouts h ≠ none
  | .createPool h n _ => h ≠ 0 ∧ d.pools h = none ∧ 0 < n
  | .destroyPool h => d.pools h ≠ none
  | .alloc p h sl => h ≠ 0 ∧ d.sets h = none ∧ ∃ P bs, d.pools p = some P ∧ d.setLayouts sl = some bs ∧
      1 ≤ P.sets ∧ ∀ t, countType bs t ≤ P.room t
  | .write h w => ∃ D, d.sets h = some D ∧ (w.binding, w.type) ∈ D.bindings ∧ Fits w.type w.resource
  | .createPipe h _ _ l => h ≠ 0 ∧ d.pipes h = none ∧ d.pipeLayouts l ≠ none
  | .destroyPipe h => d.pipes h ≠ none
  | .bind h l s => ∃ P sl bs D, d.pipes h = some P ∧ P.layout = l ∧ d.pipeLayouts l = some sl ∧
      d.setLayouts sl = some bs ∧ d.sets s = some D ∧ D.bindings = bs ∧
      ∀ b ∈ bs, (D.writes.filter fun w => w.binding = b.1).map (fun w => (w.binding, w.type)) = [b]

/-- The objects after a trace. -/
def after (d : Dev) (es : List Ev) : Dev := es.foldl step d

/-- Every call of the trace is valid. -/
def TraceValid (d : Dev) : List Ev → Prop
  | [] => True
  | e :: es => Valid d e ∧ TraceValid (step d e) es

/-! ### What the `add…` calls of a pass promise -/

/-- A call to an image method of the pass. -/
structure AddImage where
  how : ImageAdder
  binding : Nat
  views : List View

/-- A call to a buffer method of the pass. -/
structure AddBuffer where
  how : BufferAdder
  binding : Nat
  buffers : List Nat
  view : Nat
  offset : Nat
  size : Nat

def AddImage.attach (pass : Nat) (a : AddImage) : Attachment := a.how.attach pass a.binding a.views
def AddBuffer.attach (pass : Nat) (a : AddBuffer) : Attachment :=
  a.how.attach pass a.binding a.buffers a.view a.offset a.size

/-- The element for a pass index: the only one, or the one at the index. -/
def pick {α : Type} (l : List α) (index : Nat) : Option α :=
  match l with
  | [x] => some x
  | _ => l[index]?

/-- The descriptor an image method promises: sampled images as combined image samplers in SHADER_READ_ONLY, storage
images in GENERAL; none for the others. -/
def AddImage.descriptor (a : AddImage) (index : Nat) : Option Write :=
  match a.how with
  | .sampled => (pick a.views index).map fun v => ⟨a.binding, .combinedImageSampler, .image v Layout.shaderReadOnly⟩
  | .inputStorage | .outputStorage | .clearableOutputStorage | .inOutStorage =>
    (pick a.views index).map fun v => ⟨a.binding, .storageImage, .image v Layout.general⟩
  | _ => none

/-- The descriptor a buffer method promises. -/
def AddBuffer.descriptor (a : AddBuffer) (index : Nat) : Option Write :=
  let plain (t : DescType) := (pick a.buffers index).map fun b => (⟨a.binding, t, .buffer b a.offset a.size⟩ : Write)
  let texel (t : DescType) := (pick a.buffers index).map fun _ => (⟨a.binding, t, .texel a.view⟩ : Write)
  match a.how with
  | .uniform => plain .uniformBuffer
  | .inputStorage | .outputStorage | .clearableOutputStorage | .inOutStorage => plain .storageBuffer
  | .uniformView => texel .uniformTexelBuffer
  | .inputStorageView | .outputStorageView | .clearableOutputStorageView | .inOutStorageView => texel .storageTexelBuffer
  | _ => none

/-- The descriptors of a pass for an index. -/
def descriptors (is : List AddImage) (bs : List AddBuffer) (index : Nat) : List Write :=
  is.filterMap (·.descriptor index) ++ bs.filterMap (·.descriptor index)

/-- Type of the descriptor of an image method. -/
def AddImage.type (a : AddImage) : Option DescType :=
  match a.how with
  | .sampled => some .combinedImageSampler
  | .inputStorage | .outputStorage | .clearableOutputStorage | .inOutStorage => some .storageImage
  | _ => none

/-- Type of the descriptor of a buffer method. -/
def AddBuffer.type (a : AddBuffer) : Option DescType :=
  match a.how with
  | .uniform => some .uniformBuffer
  | .inputStorage | .outputStorage | .clearableOutputStorage | .inOutStorage => some .storageBuffer
  | .uniformView => some .uniformTexelBuffer
  | .inputStorageView | .outputStorageView | .clearableOutputStorageView | .inOutStorageView => some .storageTexelBuffer
  | _ => none

/-- The bindings of a pass, with their types. -/
def promised (is : List AddImage) (bs : List AddBuffer) : List Binding :=
  is.filterMap (fun a => a.type.map fun t => (a.binding, t)) ++ bs.filterMap (fun a => a.type.map fun t => (a.binding, t))

/-! ### How a pass is used -/

/-- How the library drives a pass: a compute pass prepares its objects at the first recording for an index and never
again; the others may prepare them at any recording, and do at the first one for an index. `resetPipeline` is not called
before the first recording. `prepared`: the indices recorded so far. Destruction comes last; only runs of the graph
follow. -/
def Legal (k : Kind) (prepared : List Nat) : List Op → Prop
  | [] => True
  | .record i fresh :: os =>
    (if k = .compute then fresh = true ↔ i ∉ prepared else i ∉ prepared → fresh = true) ∧ Legal k (i :: prepared) os
  | .reset _ _ :: os => prepared ≠ [] ∧ Legal k prepared os
  | .run :: os => Legal k prepared os
  | .finish :: os => ∀ o ∈ os, o = .run

/-- The program configured for an index after some operations: the last one given to `resetPipeline` for it, else the
initial one. A single program serves all the indices. -/
def programAfter (programs : List Nat) (ops : List Op) (index : Nat) : Option Nat :=
  ops.foldl (fun cur o =>
    match o with
    | .reset p i => if p ≠ 0 ∧ (programs.length = 1 ∨ i = index) then some p else cur
    | _ => cur) (if programs.length = 1 then programs[0]? else programs[index]?)

/-- A compute pass prepares an index only when no operation touched its slot yet (`single`: one slot for all the
indices). Nothing is required of the others. -/
def OneEach (k : Kind) (single : Bool) (touched : List Nat) : List Op → Prop
  | [] => True
  | .record i fresh :: os =>
    (k = .compute → fresh = true → (if single then 0 else i) ∉ touched) ∧
      OneEach k single ((if single then 0 else i) :: touched) os
  | .reset _ i :: os => OneEach k single ((if single then 0 else i) :: touched) os
  | .run :: os => OneEach k single touched os
  | .finish :: _ => True

end Verif.Pipe
