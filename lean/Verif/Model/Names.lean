import Verif.Model.Groups
/-
Model of the names the library gives to passes, groups and attachments, and of what it labels with them.
Modelled code: /repo/source/RenderGraph/FramePassGroup.cpp:196-201 (getFullName), FramePass.cpp:982-990 (getFullName,
getGroupName), 144-156 (adjustName), and the suffixes of every `add…` of FramePass.cpp:277-975 and FramePass.hpp:322-650;
RunnablePass.cpp:384-386 (label of the debug block), 256 (name of the timer).
Names are `String`s of the same characters; a C++ `std::string` holds bytes, none of which is treated specially besides '/'.
-/
namespace Verif.Names
open Verif.Groups

/-- `FramePassGroup::getFullName`, FramePassGroup.cpp:196-201, read from the default group down instead of from the group up
(`fullName_child` in Props/Names.lean is the equation of the code): `acc` is the full name of `g`. -/
def fullNameFrom (acc : String) : Group → Path → Option String
  | _, [] => some acc
  | g, k :: p =>
    match g.groups[k]? with
    | some c => fullNameFrom (acc ++ "/" ++ c.name) c p
    | none => none

/-- The full name of the group at `path`: that of the default group is the graph's name, which FrameGraph.cpp:158-159 also gives
to that group. -/
def fullName (root : Group) (path : Path) : Option String := fullNameFrom root.name root path

/-- `FramePass::getFullName`, FramePass.cpp:982-985, from the full name of the group. -/
def passFullName (group : String) (p : PassDecl) : String := group ++ "/" ++ p.name

/-- `FramePass::getGroupName`, FramePass.cpp:987-990: also the name of the node (GraphNode.cpp:99), of the timer
(RunnablePass.cpp:256) and of the registered objects. -/
def passGroupName (g : Group) (p : PassDecl) : String := g.name ++ "/" ++ p.name

/-- The label of the debug block of a pass, RunnablePass.cpp:385. -/
def blockLabel (g : Group) (p : PassDecl) : String := "[" ++ Nat.repr p.id ++ "] " ++ passGroupName g p

/-- `fpass::adjustName`, FramePass.cpp:144-156: slashes at the front are removed (`result[size]` is the null character, which
ends the loop). -/
def adjustName (pass : String) (data : String) : String :=
  String.ofList ((pass ++ "/" ++ data).toList.dropWhile (· == '/'))

/-- The calls that add an attachment, FramePass.hpp:54-650. -/
inductive AttachCall where
  | implicitBuffer | uniformBuffer | inputStorageBuffer | outputStorageBuffer | clearableOutputStorageBuffer
  | inOutStorageBuffer | implicitBufferView | uniformBufferView | inputStorageBufferView | outputStorageBufferView
  | clearableOutputStorageBufferView | inOutStorageBufferView | transferInputBuffer | transferOutputBuffer | transferInOutBuffer
  | sampled | implicitColour | implicitDepth | implicitDepthStencil
  | inputStorage | outputStorage | clearableOutputStorage | inOutStorage
  | transferInput | transferOutput | transferInOut
  | inputColour | inOutColour | outputColour | inputDepth | inOutDepth | outputDepth
  | inputDepthStencil | inOutDepthStencil | outputDepthStencil | inputStencil | inOutStencil | outputStencil
deriving DecidableEq, Repr

/-- What each call puts after the last '/', FramePass.cpp:282-532, 644-845; FramePass.hpp:444-635 with FramePass.cpp:871-957. -/
def AttachCall.suffix : AttachCall → String
  | .implicitBuffer => "ImplB"
  | .uniformBuffer => "UB"
  | .inputStorageBuffer => "ISB"
  | .outputStorageBuffer => "OSB"
  | .clearableOutputStorageBuffer => "OSB"
  | .inOutStorageBuffer => "IOSB"
  | .implicitBufferView => "ImplBV"
  | .uniformBufferView => "UBV"
  | .inputStorageBufferView => "ISBV"
  | .outputStorageBufferView => "OSBV"
  | .clearableOutputStorageBufferView => "OSBV"
  | .inOutStorageBufferView => "IOSBV"
  | .transferInputBuffer => "ITB"
  | .transferOutputBuffer => "OTB"
  | .transferInOutBuffer => "IOTB"
  | .sampled => "Spl"
  | .implicitColour => "Impl"
  | .implicitDepth => "Impl"
  | .implicitDepthStencil => "Impl"
  | .inputStorage => "IStr"
  | .outputStorage => "OStr"
  | .clearableOutputStorage => "COStr"
  | .inOutStorage => "IOStr"
  | .transferInput => "It"
  | .transferOutput => "Ot"
  | .transferInOut => "IOt"
  | .inputColour => "Ic"
  | .inOutColour => "IOc"
  | .outputColour => "Oc"
  | .inputDepth => "Id"
  | .inOutDepth => "IOd"
  | .outputDepth => "Od"
  | .inputDepthStencil => "Ids"
  | .inOutDepthStencil => "IOds"
  | .outputDepthStencil => "Ods"
  | .inputStencil => "Is"
  | .inOutStencil => "IOs"
  | .outputStencil => "Os"

/-- The name of the attachment a call adds for data called `data` (the buffer, or the first of the views). `pass` is the group
name of the pass. -/
def attachName (pass data : String) (call : AttachCall) : String := adjustName pass data ++ "/" ++ call.suffix

end Verif.Names
