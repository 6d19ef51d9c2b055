import Verif.Spec.Dependency
/-
C51: what it means for an attachment to appear in the reported transitions.
-/
namespace Verif.Deps
open Verif.Att

/-- Some transition of the list starts or ends at the attachment (attachments are compared by `operator==`). -/
def Reported {D : Type} (ts : List (Trans D)) (a : Attachment) : Prop :=
  ∃ t ∈ ts, attachEq t.output a = true ∨ attachEq t.input a = true

/-- The pass reads no image written by a pass it depends on. -/
def ReadsNoResult (H : Heap) (p : Nat) : Prop :=
  ∀ d ∈ H.univ, DependsOn H p d → ∀ o ∈ (H.pass d).images, o.isOutput = true → ∀ i ∈ (H.pass p).images, i.isInput = true →
    (viewOf o).image.id ≠ (viewOf i).image.id

/-- The pass reads no buffer written by a pass it depends on. -/
def ReadsNoBufferResult (H : Heap) (p : Nat) : Prop :=
  ∀ d ∈ H.univ, DependsOn H p d → ∀ o ∈ (H.pass d).buffers, o.isOutput = true → ∀ i ∈ (H.pass p).buffers, i.isInput = true →
    firstBuffer o.buf.buffers ≠ firstBuffer i.buf.buffers

/-- If some pass reads the view, no pass writes its image. -/
def NotPassedOn (H : Heap) (v : View) : Prop :=
  ∀ q ∈ H.univ, ∀ i ∈ (H.pass q).images, i.isInput = true → viewOf i = v →
    ∀ r ∈ H.univ, ∀ o ∈ (H.pass r).images, o.isOutput = true → (viewOf o).image.id ≠ v.image.id

/-- If some pass reads the buffer, no pass writes it. -/
def BufferNotPassedOn (H : Heap) (b : List Nat) : Prop :=
  ∀ q ∈ H.univ, ∀ i ∈ (H.pass q).buffers, i.isInput = true → i.buf.buffers = b →
    ∀ r ∈ H.univ, ∀ o ∈ (H.pass r).buffers, o.isOutput = true → firstBuffer o.buf.buffers ≠ firstBuffer b

/-- Some transition of the list goes from the outside of the graph (no pass) to the attachment. -/
def FromOutside {D : Type} (ts : List (Trans D)) (a : Attachment) : Prop :=
  ∃ t ∈ ts, t.output.pass = 0 ∧ attachEq t.input a = true

/-- Some transition of the list goes from the attachment to the outside of the graph. -/
def ToOutside {D : Type} (ts : List (Trans D)) (a : Attachment) : Prop :=
  ∃ t ∈ ts, attachEq t.output a = true ∧ t.input.pass = 0

end Verif.Deps
