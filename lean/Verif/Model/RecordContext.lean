import Verif.Model.Layout
/-
Model of `RecordContext`, the state tracker used while recording command buffers.
Modelled code: /repo/source/RenderGraph/RecordContext.cpp (adaptRange 27-44, constructors 49-62, addStates 64-77,
setNextPipelineState 79-86, registerImplicitTransition 131-143, runImplicitTransition 145-167,
set/getAccessState 169-187, memoryBarrier 189-379, copyImage/blitImage/clearAttachment actions 385-592).
Contexts are always created with resources when recording (RunnableGraph.cpp); the handler-only constructor
(58-62), for which an image barrier dereferences a null pointer, is not modelled.
-/
namespace Verif.Rec

/-- Region corners of a blit: `VkImageBlit::srcOffsets/dstOffsets`. -/
structure Corners where
  x0 : Int
  y0 : Int
  z0 : Int
  x1 : Int
  y1 : Int
  z1 : Int
deriving DecidableEq, Repr

/-- An attachment of a render pass instance: the subresources of its framebuffer view, its initial layout, the layout its
reference in the subpass names (if it is referenced), its final layout, whether its colour or depth content, and its
stencil content, are loaded, the clear value they are cleared with if they are, and whether they are stored. -/
structure PassAtt where
  image : Nat
  range : Range
  initial : Nat
  during : Option Nat
  final : Nat
  loads : Bool
  loadsStencil : Bool
  clears : Option Nat := none
  clearsStencil : Option Nat := none
  stores : Bool := true
  storesStencil : Bool := true
deriving DecidableEq, Repr

/-- Recorded commands: the Vulkan calls issued on the command buffer. Image/buffer handles are replaced by the
ids they are created from. -/
inductive Cmd where
  /-- `vkCmdPipelineBarrier` with one `VkImageMemoryBarrier`, RecordContext.cpp:244-264 -/
  | imageBarrier (image : Nat) (range : Range) (src dst : AccessState) (old new : Nat)
  /-- `vkCmdPipelineBarrier` with one `VkBufferMemoryBarrier`, RecordContext.cpp:338-356 -/
  | bufferBarrier (buffer offset size : Nat) (src dst : AccessState)
  /-- `vkCmdCopyImage`, 416-421: image ids, layouts given, source/destination `VkImageSubresourceLayers` (as a
  one level range), extent; both offsets are 0 at every call site -/
  | copyImage (src : Nat) (srcLayout : Nat) (srcSub : Range) (dst : Nat) (dstLayout : Nat) (dstSub : Range)
      (w h d : Nat)
  /-- `vkCmdBlitImage`, 472-479; `filter` is the `VkFilter`: 0 nearest, 1 linear -/
  | blitImage (src : Nat) (srcLayout : Nat) (srcSub : Range) (srcC : Corners)
      (dst : Nat) (dstLayout : Nat) (dstSub : Range) (dstC : Corners) (filter : Nat)
  /-- `vkCmdClearColorImage` (`colour`) or `vkCmdClearDepthStencilImage`, 509-529, 561-581 -/
  | clearImage (colour : Bool) (image : Nat) (layout : Nat) (range : Range) (value : Nat)
  /-- `vkCmdFillBuffer` (RunnablePass.cpp) -/
  | fillBuffer (buffer offset size : Nat)
  /-- `vkCmdCopyBuffer` with one region (BufferCopy.cpp:59-63) -/
  | copyBuffer (src dst srcOffset dstOffset size : Nat)
  /-- `vkCmdCopyBufferToImage` with one tightly packed region (BufferToImageCopy.cpp:63-68) -/
  | copyBufferToImage (buffer offset : Nat) (image layout : Nat) (sub : Range) (x y z : Int) (w h d : Nat)
  /-- `vkCmdCopyImageToBuffer` with one tightly packed region (ImageToBufferCopy.cpp:63-68) -/
  | copyImageToBuffer (image layout : Nat) (sub : Range) (x y z : Int) (w h d : Nat) (buffer offset : Nat)
  /-- `vkCmdBeginRenderPass` (RenderPassHolder.cpp:204-222), with what the render pass and framebuffer it names say,
  the size of the render area and the layers of the framebuffer -/
  | beginPass (atts : List PassAtt) (w h layers : Nat)
  /-- `vkCmdEndRenderPass` (RenderPassHolder.cpp:224-236), with the attachments of the render pass it ends -/
  | endPass (atts : List PassAtt)
  /-- commands of a user callback, opaque -/
  | user (k : Nat)
  /-- a command the body of a pass records itself (draw, dispatch, trace rays, …), opaque -/
  | work (k : Nat)
deriving DecidableEq, Repr

/-- `RecordContext::ImplicitAction` (RecordContext.hpp:23), defunctionalised: the default no-op, the library's
own actions, or an opaque user function that records `Cmd.user k`. -/
inductive Action where
  | nothing
  | user (k : Nat)
  /-- `copyImage( srcView, dstView, extent, finalLayout )`, 385-432 -/
  | copy (src dst : View) (w h : Nat) (final : Nat)
  /-- `blitImage( srcView, dstView, srcOffset, srcExtent, dstOffset, dstExtent, filter, finalLayout )`, 434-490 -/
  | blit (src dst : View) (sx sy : Int) (sw sh : Nat) (dx dy : Int) (dw dh : Nat) (filter : Nat) (final : Nat)
  /-- `clearAttachment( view, clearValue, finalLayout )`, 548-592 -/
  | clear (dst : View) (value : Nat) (final : Nat)
deriving DecidableEq, Repr

/-- `RecordContext::ImplicitTransition`, RecordContext.hpp:25-30. -/
structure Implicit where
  pass : Nat
  view : View
  action : Action
deriving DecidableEq, Repr

/-- `RecordContext` members, RecordContext.hpp:196-207. -/
structure Ctx where
  images : LayoutMap
  nextImages : LayoutMap
  buffers : Nat → Option AccessState
  implicit : List Implicit
  prev : AccessState
  curr : AccessState
  next : AccessState

/-- `{ 0u, VK_PIPELINE_STAGE_BOTTOM_OF_PIPE_BIT }`. -/
def bottom : AccessState := ⟨0, Stage.bottomOfPipe⟩

/-- `RecordContext( ContextResourcesCache & )`, RecordContext.cpp:49-56. -/
def Ctx.new : Ctx :=
  { images := LayoutMap.empty, nextImages := LayoutMap.empty, buffers := fun _ => none, implicit := []
    prev := bottom, curr := bottom, next := bottom }

/-- A recording in progress: context and commands recorded so far. -/
structure Rec where
  ctx : Ctx
  cmds : List Cmd

/-- What the recording reads from outside: `GraphContext::separateDepthStencilLayouts` and
`RunnablePass::isEnabled`. -/
structure Env where
  sepDS : Bool
  enabled : Nat → Bool

/-- Append a command. -/
def Rec.emit (r : Rec) (c : Cmd) : Rec := { r with cmds := r.cmds ++ [c] }

/-- `recctx::adaptRange`, RecordContext.cpp:27-44. -/
def adaptRange (sepDS : Bool) (format : Nat) (r : Range) : Range :=
  if !sepDS && (isDepthStencilFormat format && (r.aspect == Aspect.depth || r.aspect == Aspect.stencil)) then
    { r with aspect := Aspect.depth ||| Aspect.stencil }
  else r

/-- `RecordContext::addStates`, RecordContext.cpp:64-77. -/
def Ctx.addStates (c d : Ctx) : Ctx :=
  { c with
    images := c.images.addStates d.images
    buffers := fun b => match c.buffers b with | some s => some s | none => d.buffers b
    prev := if c.prev.access < d.curr.access then d.curr else c.prev }

/-- `RecordContext::setNextPipelineState`, RecordContext.cpp:79-86. -/
def Ctx.setNext (c : Ctx) (s : AccessState) (layouts : LayoutMap) : Ctx :=
  { c with prev := c.curr, curr := c.next, next := s, nextImages := layouts }

/-- `RecordContext::setLayoutState`, RecordContext.cpp:88-109. -/
def Ctx.setLayout (c : Ctx) (img : Image) (vt : ViewType) (r : Range) (s : LayoutState) : Ctx :=
  { c with images := c.images.setState img vt r s }

/-- `RecordContext::setAccessState`, RecordContext.cpp:169-174 (the subresource range is ignored). -/
def Ctx.setAccess (c : Ctx) (b : Nat) (s : AccessState) : Ctx :=
  { c with buffers := fun i => if i = b then some s else c.buffers i }

/-- `RecordContext::getAccessState`, RecordContext.cpp:176-187. -/
def Ctx.getAccess (c : Ctx) (b : Nat) : AccessState := (c.buffers b).getD bottom

/-- `RecordContext::memoryBarrier` for images, RecordContext.cpp:219-272 (all the other image overloads, 189-217
and 274-317, forward to it). -/
def Rec.imageBarrier (env : Env) (r : Rec) (img : Image) (vt : ViewType) (sub : Range) (initial : Nat)
    (wanted : LayoutState) (force : Bool) : Rec :=
  let range := adaptRange env.sepDS img.format sub
  let from0 := r.ctx.images.getState img vt range
  let src := if from0.layout = Layout.undefined then makeLayoutState initial else from0
  if force || ((src.layout != wanted.layout || src.state.stage != wanted.state.stage)
      && wanted.layout != Layout.undefined) then
    let r := r.emit (.imageBarrier img.id range src.state wanted.state src.layout wanted.layout)
    { r with ctx := r.ctx.setLayout img vt range wanted }
  else r

/-- `memoryBarrier( commandBuffer, view, initialLayout, wantedState, force )`, RecordContext.cpp:189-202. -/
def Rec.viewBarrier (env : Env) (r : Rec) (v : View) (initial : Nat) (wanted : LayoutState)
    (force : Bool := false) : Rec :=
  r.imageBarrier env v.image v.viewType v.range initial wanted force

/-- `RecordContext::memoryBarrier` for buffers, RecordContext.cpp:319-363 (365-379 forwards to it with
`{0, BOTTOM_OF_PIPE}`). -/
def Rec.bufferBarrier (r : Rec) (b offset size : Nat) (initial wanted : AccessState) (force : Bool := false) :
    Rec :=
  let from0 := r.ctx.getAccess b
  let src := if from0.stage = Stage.bottomOfPipe then initial else from0
  if force || (src.access != wanted.access || src.stage != wanted.stage) then
    let r := r.emit (.bufferBarrier b offset size src wanted)
    { r with ctx := r.ctx.setAccess b wanted }
  else r

/-- `RecordContext::registerImplicitTransition`, RecordContext.cpp:131-143. -/
def Rec.register (r : Rec) (t : Implicit) : Rec :=
  { r with ctx := { r.ctx with implicit := r.ctx.implicit ++ [t] } }

/-- The `if ( finalLayout != VK_IMAGE_LAYOUT_UNDEFINED )` tail of the actions, 423-430, 481-488, 531-538, 583-590. -/
def Rec.finalBarrier (env : Env) (r : Rec) (v : View) (final : Nat) : Rec :=
  if final != Layout.undefined then r.viewBarrier env v Layout.undefined (makeLayoutState final) else r

/-- `VkImageSubresourceLayers{ aspectMask, baseMipLevel, baseArrayLayer, 1u }`, 399, 401, 454, 457. -/
def firstLayer (r : Range) : Range := { r with levels := 1, layers := 1 }

/-- Body of the `copyImage` action after its `runImplicitTransition`, 397-430. -/
def Rec.doCopy (env : Env) (r : Rec) (src dst : View) (w h final : Nat) : Rec :=
  let r := r.viewBarrier env src Layout.undefined (makeLayoutState Layout.transferSrc)
  let r := r.viewBarrier env dst Layout.undefined (makeLayoutState Layout.transferDst)
  let r := r.emit (.copyImage src.image.id Layout.transferSrc (firstLayer src.range)
    dst.image.id Layout.transferDst (firstLayer dst.range) w h 1)
  r.finalBarrier env dst final

/-- Body of the `blitImage` action after its `runImplicitTransition`, 452-488. Note that the second corner is the
extent, 455, 458. -/
def Rec.doBlit (env : Env) (r : Rec) (src dst : View) (sx sy : Int) (sw sh : Nat) (dx dy : Int) (dw dh : Nat)
    (filter final : Nat) : Rec :=
  let r := r.viewBarrier env src Layout.undefined (makeLayoutState Layout.transferSrc)
  let r := r.viewBarrier env dst Layout.undefined (makeLayoutState Layout.transferDst)
  let r := r.emit (.blitImage src.image.id Layout.transferSrc (firstLayer src.range) ⟨sx, sy, 0, sw, sh, 1⟩
    dst.image.id Layout.transferDst (firstLayer dst.range) ⟨dx, dy, 0, dw, dh, 1⟩ filter)
  r.finalBarrier env dst final

/-- Body of the `clearAttachment` actions, 500-538 and 556-590. -/
def Rec.doClear (env : Env) (r : Rec) (dst : View) (value final : Nat) : Rec :=
  let r := r.viewBarrier env dst Layout.undefined (makeLayoutState Layout.transferDst)
  let r := r.emit (.clearImage (isColourFormat dst.format) dst.image.id Layout.transferDst dst.range value)
  r.finalBarrier env dst final

/-- Same view: `Id` comparison is on the id only, Id.hpp:41-45. -/
def Implicit.isFor (v : View) (t : Implicit) : Bool := t.view.id == v.id

theorem eraseP_lt {l : List Implicit} {p : Implicit → Bool} {t : Implicit} (h : l.find? p = some t) :
    (l.eraseP p).length < l.length := by
  have hm := List.mem_of_find?_eq_some h
  have hp := List.find?_some h
  have := List.length_eraseP_of_mem hm hp
  have : 0 < l.length := List.length_pos_of_mem hm
  omega

/-- `RecordContext::runImplicitTransition`, RecordContext.cpp:145-167, with the actions inlined (they are run
synchronously; copy and blit first run the pending transition of their source, 394-396, 447-449). Every nested
call has removed one pending transition, so the number of pending ones bounds the nesting; `n` is that bound. -/
def Rec.runImplicitN (env : Env) : Nat → Rec → View → Rec
  | 0, r, _ => r
  | n + 1, r, v =>
    match r.ctx.implicit.find? (Implicit.isFor v) with
    | none => r
    | some t =>
      let r1 : Rec := { r with ctx := { r.ctx with implicit := r.ctx.implicit.eraseP (Implicit.isFor v) } }
      if env.enabled t.pass then r1
      else match t.action with
        | .nothing => r1
        | .user k => r1.emit (.user k)
        | .copy src dst w h final => (Rec.runImplicitN env n r1 src).doCopy env src dst w h final
        | .blit src dst sx sy sw sh dx dy dw dh filter final =>
          (Rec.runImplicitN env n r1 src).doBlit env src dst sx sy sw sh dx dy dw dh filter final
        | .clear dst value final => r1.doClear env dst value final

/-- `RecordContext::runImplicitTransition`; Props/Recording.lean (`runImplicit_some`) shows that it satisfies the
recursive equation without bound. -/
def Rec.runImplicit (env : Env) (r : Rec) (v : View) : Rec := Rec.runImplicitN env r.ctx.implicit.length r v

end Verif.Rec
