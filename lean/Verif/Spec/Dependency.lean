import Verif.Model.Dependency
import Verif.Spec.Layout
/-
Specification vocabulary for dependencies between passes: paths of declared dependencies (`passDepends`), what it means
for a pass to write or read a view or a buffer, sharing of subresources, reachability in the pass graph.
-/
namespace Verif.Deps
open Verif.Att

/-- `Via H writes reads t a`: following declared dependencies from pass `a` one reaches a pass of id `t` that writes
the data, all passes in between neither writing nor reading it. -/
inductive Via (H : Heap) (writes reads : DPass → Prop) (t : Nat) : Nat → Prop
  | last {a d : Nat} : d ∈ (H.pass a).deps → writes (H.pass d) → (H.pass d).id = t → Via H writes reads t a
  | step {a d : Nat} : d ∈ (H.pass a).deps → ¬ writes (H.pass d) → ¬ reads (H.pass d) → Via H writes reads t d →
      Via H writes reads t a

/-- No cycle of declared dependencies: every pass can be given a rank above its dependencies'. (A sorted pass list
gives one, the position.) -/
def Acyclic (H : Heap) : Prop := ∃ rank : Nat → Nat, ∀ a d, d ∈ (H.pass a).deps → rank d < rank a

/-- Dependencies of passes of the graph are passes of the graph. -/
def Closed (H : Heap) : Prop := ∀ a ∈ H.univ, ∀ d ∈ (H.pass a).deps, d ∈ H.univ

/-- The subresources `(layer, mip)` of its image that a view designates. -/
def Covers (v : View) (layer mip : Nat) : Prop :=
  ∃ sub, Designates v.image v.viewType v.range sub ∧ sub.Has layer mip

/-- Two views of the same data: same image and format, a common aspect, the same subresources. -/
def SameView (l r : View) : Prop :=
  l.image = r.image ∧ l.format = r.format ∧ l.range.aspect &&& r.range.aspect ≠ 0
  ∧ ∀ layer mip, Covers l layer mip ↔ Covers r layer mip

/-- A view Vulkan accepts, as far as needed here: it designates something, and a 3D view has the only layer. -/
def ViewOk (v : View) : Prop :=
  (∃ layer mip, Covers v layer mip) ∧ (v.viewType = .d3 → v.range.baseLayer = 0 ∧ v.range.layers = 1)

/-- The pass has an output attachment of this view. -/
def WritesView (v : View) (p : DPass) : Prop := ∃ a ∈ p.images, a.isOutput = true ∧ SameView (viewOf a) v
/-- The pass has an input attachment of this view. -/
def ReadsView (v : View) (p : DPass) : Prop := ∃ a ∈ p.images, a.isInput = true ∧ SameView (viewOf a) v

/-- The pass has a storage or transfer output attachment of this buffer. -/
def WritesBuffer (b : List Nat) (p : DPass) : Prop := ∃ a ∈ p.buffers, a.isOutput = true ∧ a.buf.buffers = b
/-- The pass has an input attachment of this buffer. -/
def ReadsBuffer (b : List Nat) (p : DPass) : Prop := ∃ a ∈ p.buffers, a.isInput = true ∧ a.buf.buffers = b

/-- The pass has a storage attachment of this buffer, read, written or both. -/
def StoresBuffer (b : List Nat) (p : DPass) : Prop := ∃ a ∈ p.buffers, a.isStorageBuffer = true ∧ a.buf.buffers = b

/-- Two views share data: same image, some subresource in both. -/
def ShareData (l r : View) : Prop := l.image.id = r.image.id ∧ ∃ layer mip, Covers l layer mip ∧ Covers r layer mip

/-- Node `b` can be reached from node `a` along `next`. -/
inductive Reachable (g : Graph) : Nat → Nat → Prop
  | here (a : Nat) : Reachable g a a
  | step {a b c : Nat} : Reachable g a b → c ∈ g.next b → Reachable g a c

/-- Following declared dependencies, at least one, from pass `a` one reaches pass `b`. -/
inductive DependsOn (H : Heap) : Nat → Nat → Prop
  | direct {a d : Nat} : d ∈ (H.pass a).deps → DependsOn H a d
  | step {a d b : Nat} : d ∈ (H.pass a).deps → DependsOn H d b → DependsOn H a b

/-- The same transition: same data, same writer attachment, same reader attachment. -/
def SameViewTransition (x y : Trans View) : Prop :=
  SameView x.data y.data ∧ attachEq x.output y.output = true ∧ attachEq x.input y.input = true
def SameBufferTransition (x y : Trans (List Nat)) : Prop :=
  x.data = y.data ∧ attachEq x.output y.output = true ∧ attachEq x.input y.input = true

/-- What the application guarantees of the passes handed to the compilation: they are not null, their ids are distinct
32-bit numbers, their attachments are theirs, and the views of these were created by one handler (32-bit ids, one view
for each). -/
structure WellFormed (H : Heap) (known : View → Prop) : Prop where
  nonnull : ∀ a ∈ H.univ, a ≠ 0
  id32 : ∀ a ∈ H.univ, (H.pass a).id < 2 ^ 32
  ids : ∀ a ∈ H.univ, ∀ b ∈ H.univ, (H.pass a).id = (H.pass b).id → a = b
  images : ∀ a ∈ H.univ, ∀ x ∈ (H.pass a).images, x.pass = a ∧ known (viewOf x)
  buffers : ∀ a ∈ H.univ, ∀ x ∈ (H.pass a).buffers, x.pass = a
  views : ∀ v w, known v → known w → v.id = w.id → v = w
  view32 : ∀ v, known v → v.id < 2 ^ 32

end Verif.Deps
