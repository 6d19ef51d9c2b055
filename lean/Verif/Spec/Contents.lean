import Verif.Spec.Memory
import Verif.Spec.Graph
/-
Vocabulary of the properties about the contents of images: what a context knows, which commands discard or write contents.
-/
namespace Verif.Gpu
open Verif.Rec Verif.Att Verif.Run

/-- `RecordContext::getLayoutState( view )` isn't UNDEFINED. -/
def Known (c : Ctx) (v : View) : Prop := (c.images.getState v.image v.viewType v.range).layout ≠ Layout.undefined

instance (c v) : Decidable (Known c v) := by unfold Known; infer_instance

/-- The subresources the tracker counts for the view (those of its range, or the slices of a 3D view) aren't none. -/
def HasParts (v : View) : Prop := ∃ l k, (getVirtualRange v.image v.viewType v.range).Has l k

/-- The byte is one of a subresource of the view, whatever its aspect. -/
def Cell.InView (c : Cell) (v : View) : Prop := c.image = v.image.id ∧ v.range.Has c.layer c.level

/-- The command is a barrier (not the start or end of a render pass). -/
def IsBarrier : Cmd → Prop
  | .imageBarrier .. => True
  | _ => False

/-- The command stores something in the byte, itself or through what the user records. -/
def Writes (dev : Device) : Cmd → Cell → Prop
  | .copyImage _ _ _ t _ tr w h d, c => c.InBox t tr 0 0 0 w h d
  | .copyBufferToImage _ _ t _ tr x y z w h d, c => c.InBox t tr x y z w h d
  | .blitImage _ _ _ _ t _ tr _ _, c => c.image = t ∧ Selects tr c.aspect c.layer c.level
  | .clearImage _ img _ r _, c => c.image = img ∧ Selects r c.aspect c.layer c.level
  | .beginPass atts w h layers, c => ∃ v, atts.findSome? (clearedTo w h layers c) = some v
  | .user k, c => ∃ M, (dev.user k M).image c ≠ M.image c
  | .work k, c => ∃ M, (dev.work k M).image c ≠ M.image c
  | _, _ => False

end Verif.Gpu
