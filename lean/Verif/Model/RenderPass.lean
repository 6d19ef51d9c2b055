import Verif.Model.RunnableGraph
/-
Model of the render pass and framebuffer of the passes that draw.
Modelled code: /repo/source/RenderGraph/RunnablePasses/RenderPassHolder.cpp, RenderPass.cpp 110-145 (`doRecordInto`; the
quad and mesh passes do the same, RenderQuad.cpp:40-65, RenderMesh.cpp:40-66).
Not modelled: merged views (`ImageViewData::source`; for the others `resolveView` is the identity), sample counts,
object names and handles, a device call that fails.
-/
namespace Verif.RPass
open Verif.Rec Verif.Att Verif.Run

/-- Attachment.hpp:486-489 -/
def isDepthAttach (a : Attachment) : Bool := a.isImage && a.img.isDepth
/-- Attachment.hpp:491-494 -/
def isStencilAttach (a : Attachment) : Bool := a.isImage && a.img.isStencil
/-- Attachment.hpp:496-504 -/
def isColourAttach (a : Attachment) : Bool :=
  !a.isSampledView && !a.isTransitionView && !a.isStorageView && !a.isTransferView && !isDepthAttach a && !isStencilAttach a

/-- The attachments that become attachments of the render pass, RenderPassHolder.cpp:251-253, 366-368. -/
def isTarget (a : Attachment) : Bool := isDepthAttach a || isStencilAttach a || isColourAttach a

/-- `VkAttachmentDescription`, without the samples. -/
structure Desc where
  format : Nat
  loadOp : Nat
  storeOp : Nat
  stencilLoadOp : Nat
  stencilStoreOp : Nat
  initial : Nat
  final : Nat
deriving DecidableEq, Repr

/-- `RenderPassHolder::Entry`, RenderPassHolder.hpp:13-18. -/
structure Entry where
  view : View
  input : LayoutState
  output : LayoutState
deriving DecidableEq, Repr

/-- `VkAttachmentReference`. -/
structure Ref where
  attachment : Nat
  layout : Nat
deriving DecidableEq, Repr

/-- `VkSubpassDependency`: from or to outside (`VK_SUBPASS_EXTERNAL`), with both scopes. -/
structure Dep where
  before : Bool
  srcStage : Nat
  dstStage : Nat
  srcAccess : Nat
  dstAccess : Nat
deriving DecidableEq, Repr

/-- `RenderPassHolder::PassData`, RenderPassHolder.hpp:79-90, with what its `VkRenderPass` and `VkFramebuffer` were
created from. -/
structure PassObj where
  descs : List Desc := []
  colours : List Ref := []
  /-- `depthReference`, value-initialised: (0, UNDEFINED) -/
  depth : Ref := ⟨0, 0⟩
  entries : List Entry := []
  /-- `clearValues` -/
  clears : List Nat := []
  /-- `m_blendAttachs` (a member of the holder, refilled whenever a render pass is created) -/
  blends : List Nat := []
  /-- `VkRenderPassCreateInfo::pDependencies` -/
  deps : List Dep := []
  prev : AccessState := ⟨0, 0⟩
  next : AccessState := ⟨0, 0⟩
  /-- views of the framebuffer, 386-397 -/
  views : List View := []
  width : Nat := 0
  height : Nat := 0
  layers : Nat := 0
deriving DecidableEq, Repr

/-- `rpHolder::addAttach`, RenderPassHolder.cpp:20-58: the reference, and the updated data and context. -/
def addAttach (sepDS : Bool) (o : PassObj) (c : Ctx) (a : Attachment) (v : View) (initial final : LayoutState) :
    Ref × PassObj × Ctx :=
  (⟨o.descs.length, a.getImageLayout sepDS⟩,
   { o with
     descs := o.descs ++ [⟨v.format, if initial.layout = Layout.undefined then LoadOp.clear else a.img.loadOp,
       a.img.storeOp, a.img.stencilLoadOp, a.img.stencilStoreOp, initial.layout, final.layout⟩]
     entries := o.entries ++ [⟨v, initial, final⟩]
     clears := o.clears ++ [a.img.clearValue] },
   c.setLayout v.image v.viewType v.range final)

/-- One attachment of the loop of `doCreateRenderPass`, RenderPassHolder.cpp:249-296; `none` is an out of range view
index. -/
def createOne (sepDS : Bool) (G : GraphSt) (p : RunPass) (index : Nat) (oc : PassObj × Ctx) (a : Attachment) :
    Option (PassObj × Ctx) :=
  if isTarget a then
    match a.img.view index with
    | none => none
    | some v =>
      let cur := getCurrentLayoutState G oc.2 v
      let next := getNextLayoutState sepDS G cur.2 p v
      let initial := if !a.isInput then makeLayoutState Layout.undefined else cur.1
      let r := addAttach sepDS oc.1 cur.2 a v initial next
      if isDepthAttach a || isStencilAttach a then some ({ r.2.1 with depth := r.1 }, r.2.2)
      else some ({ r.2.1 with colours := r.2.1.colours ++ [r.1], blends := r.2.1.blends ++ [a.img.blend] }, r.2.2)
  else some oc

/-- `for ( auto & attach : … )` over a step that may have no result. -/
def foldOpt {α β : Type} (f : β → α → Option β) : β → List α → Option β
  | b, [] => some b
  | b, a :: as => match f b a with | none => none | some b => foldOpt f b as

/-- `COLOR_ATTACHMENT_WRITE | COLOR_ATTACHMENT_READ`. -/
def colourAccess : Nat := Access.colorWrite ||| Access.colorRead

/-- The subpass dependencies, RenderPassHolder.cpp:310-324. -/
def dependencies (prev next : AccessState) : List Dep :=
  [⟨true, prev.stage, Stage.colorAttachmentOutput, prev.access, colourAccess⟩,
   ⟨false, Stage.colorAttachmentOutput, next.stage, colourAccess, next.access⟩]

/-- `doCreateRenderPass`, RenderPassHolder.cpp:238-335. -/
def create (sepDS : Bool) (G : GraphSt) (p : RunPass) (index : Nat) (c : Ctx) : Option (PassObj × Ctx) :=
  (foldOpt (createOne sepDS G p index) ({}, c) p.images).map fun oc =>
    ({ oc.1 with prev := c.prev, next := c.next, deps := dependencies c.prev c.next }, oc.2)

/-- One attachment of `doInitialiseRenderArea`, RenderPassHolder.cpp:366-379; `attach.view()` is the first view. -/
def areaOne (o : PassObj) (a : Attachment) : Option PassObj :=
  if isTarget a then
    (a.img.view 0).map fun v =>
      { o with
        width := max o.width (v.image.width >>> v.range.baseMip)
        height := max o.height (v.image.height >>> v.range.baseMip)
        layers := max o.layers v.range.layers }
  else some o

/-- `doInitialiseRenderArea`, RenderPassHolder.cpp:355-383. -/
def area (width height : Nat) (p : RunPass) (o : PassObj) : Option PassObj :=
  foldOpt areaOne { o with width, height, layers := 1 } p.images

/-- The views of `doCreateFramebuffer`, RenderPassHolder.cpp:392-397. -/
def framebuffer (p : RunPass) (index : Nat) (o : PassObj) : Option PassObj :=
  ((p.images.filter isTarget).mapM fun (a : Attachment) => a.img.view index).map fun views => { o with views }

/-- `rpHolder::operator!=` for layout states, RenderPassHolder.cpp:88-93. -/
def differ (a b : LayoutState) : Bool :=
  a.layout != b.layout || a.state.access != b.state.access || (a.state.access != 0 && a.state.stage != b.state.stage)

/-- `rpHolder::checkAttaches`, RenderPassHolder.cpp:95-109. -/
def checkAttaches (c : Ctx) (es : List Entry) : Bool :=
  !es.any fun e =>
    let layout := c.images.getState e.view.image e.view.viewType e.view.range
    differ layout e.input && layout.layout != Layout.undefined

/-- `RenderPassHolder::initialise`, RenderPassHolder.cpp:160-186: the data for the index, whether it is new, and the
context. `cached`: the data, if a render pass was created before. The framebuffer, created when the render pass is begun
(204-222, 386-417), is created here. -/
def initialise (sepDS : Bool) (G : GraphSt) (width height : Nat) (p : RunPass) (index : Nat) (cached : Option PassObj)
    (c : Ctx) : Option (PassObj × Bool × Ctx) :=
  let fresh := (create sepDS G p index c).bind fun oc => (area width height p oc.1).bind fun o =>
    (framebuffer p index o).map fun o => (o, true, oc.2)
  match cached with
  | some o => if checkAttaches c o.entries && (o.prev == c.prev && o.next == c.next) then some (o, false, c) else fresh
  | none => fresh

/-- The references of the subpass, RenderPassHolder.cpp:298-307. -/
def PassObj.refs (o : PassObj) : List Ref := o.colours ++ if o.depth.layout ≠ 0 then [o.depth] else []

/-- What `vkCmdBeginRenderPass` is told of the attachment `k`. -/
def PassObj.att (o : PassObj) (k : Nat) (d : Desc) (v : View) : PassAtt :=
  { image := v.image.id, range := v.range, initial := d.initial
    during := (o.refs.find? fun r => r.attachment == k).map (·.layout)
    final := d.final, loads := d.loadOp == LoadOp.load
    loadsStencil := d.stencilLoadOp == LoadOp.load && (getAspectMask d.format).testBit 2
    clears := if d.loadOp = LoadOp.clear then some (o.clears[k]?.getD 0) else none
    clearsStencil := if d.stencilLoadOp = LoadOp.clear then some (o.clears[k]?.getD 0) else none
    stores := d.storeOp == StoreOp.store
    storesStencil := d.stencilStoreOp == StoreOp.store }

/-- The attachments of a render pass instance: descriptions and framebuffer views by position. -/
def PassObj.atts (o : PassObj) : List PassAtt :=
  (o.descs.zip o.views).mapIdx fun k dv => o.att k dv.1 dv.2

/-- `begin`, RenderPassHolder.cpp:200-222. -/
def beginPass (r : Rec) (o : PassObj) : Rec :=
  ({ r with ctx := o.entries.foldl (fun (c : Ctx) (e : Entry) => c.setLayout e.view.image e.view.viewType e.view.range e.input) r.ctx }).emit
    (.beginPass o.atts o.width o.height o.layers)

/-- `end`, RenderPassHolder.cpp:224-236. -/
def endPass (r : Rec) (o : PassObj) : Rec :=
  let r := r.emit (.endPass o.atts)
  { r with ctx := o.entries.foldl (fun (c : Ctx) (e : Entry) => c.setLayout e.view.image e.view.viewType e.view.range e.output) r.ctx }

/-- `RenderPass::doRecordInto`, RenderPass.cpp:119-142, with the commands of the record callback. -/
def recordPass (sepDS : Bool) (G : GraphSt) (width height : Nat) (p : RunPass) (cached : Option PassObj)
    (draw : List Nat) (index : Nat) (r : Rec) : Option (PassObj × Rec) :=
  (initialise sepDS G width height p index cached r.ctx).map fun o =>
    let r := beginPass { r with ctx := o.2.2 } o.1
    (o.1, endPass { r with cmds := r.cmds ++ draw.map .user } o.1)

end Verif.RPass
