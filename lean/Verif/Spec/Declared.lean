import Verif.Spec.Attachment
/-
What each `add…View` method promises of the image while the pass's commands run. Written from the API's documentation, not
from the code of the recording.
-/
namespace Verif.Att

/-- The layout the image is to be in when the commands of the pass run; `none` for render targets, whose layouts are the
business of the render pass. -/
def ImageAdder.wants : ImageAdder → Option Nat
  | .sampled => some Layout.shaderReadOnly
  | .implicitColour l | .implicitDepth l | .implicitDepthStencil l => some l
  | .inputStorage | .outputStorage | .clearableOutputStorage | .inOutStorage => some Layout.general
  | .transferInput => some Layout.transferSrc
  | .transferOutput | .transferInOut _ => some Layout.transferDst
  | _ => none

/-- The user did not ask for the image to be left alone: `addTransferInOutView` takes extra flags, one of which
(`Attachment::Flag::NoTransition`, bit 4) does. -/
def ImageAdder.Ordinary : ImageAdder → Prop
  | .transferInOut f => f.testBit 4 = false
  | _ => True

end Verif.Att
