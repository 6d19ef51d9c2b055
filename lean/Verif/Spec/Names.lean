import Verif.Model.Names
import Verif.Spec.Groups
/- Words for the names of a graph: what the user chose, and which thing a name belongs to. -/
namespace Verif.Names
open Verif.Groups

/-- The character that separates names does not occur in it. -/
def NoSlash (s : String) : Prop := '/' ∉ s.toList

/-- Some character of it is not the separator. -/
def HasText (s : String) : Prop := ∃ c ∈ s.toList, c ≠ '/'

/-- A pass of the graph: the group it is in, and its declaration. -/
def IsPass (root : Group) (path : Path) (g : Group) (p : PassDecl) : Prop := IsGroup root path g ∧ p ∈ g.passes

/-- No name the user gave to a group (besides the graph's own) or to a pass contains the separator. -/
def NoSlashes (root : Group) : Prop :=
  (∀ path g, path ≠ [] → IsGroup root path g → NoSlash g.name) ∧ (∀ path g p, IsPass root path g p → NoSlash p.name)

/-- Whether two calls are for the same sort of attachment as far as a name can say: the three implicit views, and an output
storage buffer (view) with or without clearing. -/
def SameSort (a b : AttachCall) : Prop :=
  a = b
  ∨ (a ∈ [.implicitColour, .implicitDepth, .implicitDepthStencil] ∧ b ∈ [.implicitColour, .implicitDepth, .implicitDepthStencil])
  ∨ (a ∈ [.outputStorageBuffer, .clearableOutputStorageBuffer] ∧ b ∈ [.outputStorageBuffer, .clearableOutputStorageBuffer])
  ∨ (a ∈ [.outputStorageBufferView, .clearableOutputStorageBufferView]
      ∧ b ∈ [.outputStorageBufferView, .clearableOutputStorageBufferView])

end Verif.Names
