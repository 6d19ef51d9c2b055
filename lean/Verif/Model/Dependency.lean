import Verif.Model.Attachment
import Verif.Model.Layout
/-
Model of the resource dependencies between passes and of the construction of the pass graph.
Modelled code: /repo/source/RenderGraph/FramePass.cpp:18-142, 156-264 (`dependsOn` on a view or buffer),
/repo/source/RenderGraph/FrameGraph.cpp:113-153, 640-646 (`match`),
/repo/source/RenderGraph/FramePassDependenciesBuilder.cpp (whole file, debug printing left out),
/repo/source/RenderGraph/GraphBuilder.cpp, GraphNode.cpp, AttachmentTransition.cpp (whole files),
/repo/source/RenderGraph/Attachment.cpp:624-655 (equality).
Simplifications: names, sampler descriptions, clear values and blend states are not modelled, so they don't take part
in the equality of attachments; view creation flags neither. An attachment has at least one view or buffer: the `add…`
methods read the first one.
-/
namespace Verif.Deps
open Verif.Att

/-- A `FramePass`: id, `passDepends` (as addresses), `images`, `buffers` (FramePass.hpp:655-670). -/
structure DPass where
  id : Nat
  deps : List Nat
  images : List Attachment
  buffers : List Attachment

/-- The passes by address; `univ` lists the addresses in use. The null pointer is 0. The `pass` field of an
attachment is the address of its pass. -/
structure Heap where
  univ : List Nat
  pass : Nat → DPass

/-! ### Views -/

/-- `fgph::match( VkImageSubresourceRange, VkImageSubresourceRange )`, FrameGraph.cpp:113-121. -/
def matchRange (l r : Range) : Bool :=
  l.aspect &&& r.aspect != 0 && l.baseLayer == r.baseLayer && l.layers == r.layers
    && l.baseMip == r.baseMip && l.levels == r.levels

/-- `match( ImageViewData, ImageViewData )`, FrameGraph.cpp:123-153, 640-646; creation flags are taken equal. -/
def matchView (l r : View) : Bool :=
  l.image.id == r.image.id && l.format == r.format
    && (if l.viewType = r.viewType then matchRange l.range r.range
        else matchRange (getVirtualRange l.image l.viewType l.range) (getVirtualRange l.image r.viewType r.range))

/-- `Attachment::view()` (index 0), Attachment.cpp:219-224. -/
def viewOf (a : Attachment) : View := a.img.views.headD ⟨0, ⟨0, 0, 0, 0, 0, 0, 0⟩, .d1, 0, ⟨0, 0, 0, 0, 0⟩⟩

/-- `fpass::splitAttach`, FramePass.cpp:18-35, and `AttachDataTraitsT< ImageViewId >::split`,
FramePassDependenciesBuilder.cpp:92-109. `sources` gives the `source` views of a merged view. The constructor
`Attachment( view, origin )`, Attachment.cpp:430-439, copies the views of the origin and ignores `view`. -/
def splitAttach (sources : View → List View) (a : Attachment) : List Attachment :=
  if (sources (viewOf a)).isEmpty then [a] else (sources (viewOf a)).map fun _ => a

/-- `fpass::splitView`, FramePass.cpp:37-53. -/
def splitView (sources : View → List View) (v : View) : List View :=
  if (sources v).isEmpty then [v] else sources v

/-- `fpass::isInOutputs( pass, view )`, FramePass.cpp:76-94 with `matchView` 55-74. -/
def viewInOutputs (sources : View → List View) (p : DPass) (v : View) : Bool :=
  p.images.any fun a => (splitAttach sources a).any fun l => (splitView sources v).any fun r =>
    matchView (viewOf l) r && l.isOutput

/-- `fpass::isInInputs( pass, view )`, FramePass.cpp:96-114. -/
def viewInInputs (sources : View → List View) (p : DPass) (v : View) : Bool :=
  p.images.any fun a => (splitAttach sources a).any fun l => (splitView sources v).any fun r =>
    matchView (viewOf l) r && l.isInput

/-- `fpass::makeHash( pass, view )` for 64-bit `size_t`, FramePass.cpp:156-168. -/
def viewKey (pass view : Nat) : Nat := (pass <<< 32 ||| view) % 2 ^ 64

/-! ### Buffers: a `Buffer` is the list of its `VkBuffer` handles -/

/-- `fpass::isInOutputs( pass, buffer )`, FramePass.cpp:116-128. -/
def bufferInOutputs (p : DPass) (b : List Nat) : Bool :=
  p.buffers.any fun a => a.isStorageBuffer && a.buf.buffers == b

/-- `fpass::isInInputs( pass, buffer )`, FramePass.cpp:130-142. -/
def bufferInInputs (p : DPass) (b : List Nat) : Bool :=
  p.buffers.any fun a => a.isStorageBuffer && a.buf.buffers == b

/-- `Buffer::buffer()`, first handle. -/
def firstBuffer (b : List Nat) : Nat := b.headD 0

/-- `fpass::makeHash( pass, buffer )` for 64-bit `size_t`, FramePass.cpp:170-182. -/
def bufferKey (pass handle : Nat) : Nat := (pass <<< 32 ||| (handle &&& 0xFFFFFFFF)) % 2 ^ 64

/-! ### `FramePass::dependsOn`, FramePass.cpp:202-264 -/

/-- `PassDependencyCache`: pass address → key → answer. -/
abbrev Cache := Nat → Nat → Option Bool
def Cache.empty : Cache := fun _ _ => none
def Cache.set (c : Cache) (a k : Nat) (b : Bool) : Cache := fun x y => if x = a ∧ y = k then some b else c x y

/-- The `find_if` over `passDepends`, FramePass.cpp:211-228 (243-260 for buffers): `outputs` and `inputs` are
`isInOutputs( *lookup, data )` and `isInInputs( *lookup, data )`, `rec` the recursive call. -/
def findDep (H : Heap) (outputs inputs : DPass → Bool) (target : Nat)
    (rec : Nat → Cache → Option (Bool × Cache)) : List Nat → Cache → Option (Bool × Cache)
  | [], c => some (false, c)
  | l :: ls, c =>
    if outputs (H.pass l) then
      if target = (H.pass l).id then some (true, c) else findDep H outputs inputs target rec ls c
    else if !inputs (H.pass l) then
      match rec l c with
      | none => none
      | some (true, c) => some (true, c)
      | some (false, c) => findDep H outputs inputs target rec ls c
    else findDep H outputs inputs target rec ls c

/-- `FramePass::dependsOn( pass, data, cache )` with at most `n` nested calls; `none` when this isn't enough. -/
def dependsOnN (H : Heap) (outputs inputs : DPass → Bool) (target key : Nat) :
    Nat → Nat → Cache → Option (Bool × Cache)
  | 0, _, _ => none
  | n + 1, a, c =>
    match c a key with
    | some b => some (b, c)
    | none =>
      match findDep H outputs inputs target (dependsOnN H outputs inputs target key n) (H.pass a).deps
          (c.set a key false) with
      | none => none
      | some (b, c) => some (b, c.set a key b)

/-- `FramePass::dependsOn( pass, data, cache )`. The nesting is at most the number of passes, since each nested call
has added an entry to the cache (Props/Dependency.lean, `dependsOn_terminates`: the default value is never used). -/
def dependsOn (H : Heap) (outputs inputs : DPass → Bool) (target key : Nat) (a : Nat) (c : Cache) : Bool × Cache :=
  (dependsOnN H outputs inputs target key (H.univ.length + 1) a c).getD (false, c)

/-! ### Equality of attachments and transitions -/

/-- `operator==( ImageAttachment, ImageAttachment )`, Attachment.cpp:634-646: views are compared by id. -/
def imgEq (l r : ImgAttach) : Bool :=
  l.flags == r.flags && l.views.map (·.id) == r.views.map (·.id) && l.loadOp == r.loadOp && l.storeOp == r.storeOp
    && l.stencilLoadOp == r.stencilLoadOp && l.stencilStoreOp == r.stencilStoreOp
    && l.clearValue == r.clearValue && l.blend == r.blend

/-- `operator==( BufferAttachment, BufferAttachment )`, Attachment.cpp:624-632. -/
def bufEq (l r : BufAttach) : Bool :=
  l.flags == r.flags && l.buffers == r.buffers && l.bufferView == r.bufferView && l.offset == r.offset
    && l.size == r.size

/-- `operator==( Attachment, Attachment )`, Attachment.cpp:648-655. -/
def attachEq (l r : Attachment) : Bool :=
  l.pass == r.pass && l.flags == r.flags && imgEq l.img r.img && bufEq l.buf r.buf

/-- `DataTransitionT`, AttachmentTransition.hpp:12-18. -/
structure Trans (D : Type) where
  data : D
  output : Attachment
  input : Attachment

/-! ### What `AttachDataTraitsT` and the overloads provide for views and buffers -/

/-- The operations of the builder that depend on the kind of data. -/
structure Kind (D : Type) where
  get : Attachment → D
  getOutput : Attachment → Attachment → D
  getInput : Attachment → Attachment → D
  split : Attachment → List Attachment
  isInput : Attachment → Bool
  isOutput : Attachment → Bool
  /-- `operator==` -/
  same : D → D → Bool
  /-- `areOverlapping` -/
  overlap : D → D → Bool
  /-- `deps::match` -/
  agree : D → D → Bool
  /-- comparison of the data in the `operator==` of transitions, AttachmentTransition.cpp:35-47 -/
  transData : D → D → Bool
  /-- the branch of `addRemainingDependency` that makes the attachment an input -/
  remainingInput : Attachment → Bool
  /-- `Attachment::createDefault` -/
  external : D → Attachment
  /-- `images` or `buffers` -/
  attaches : DPass → List Attachment
  outputs : D → DPass → Bool
  inputs : D → DPass → Bool
  key : Nat → D → Nat

/-- `deps::isInRange`, FramePassDependenciesBuilder.cpp:25-30. -/
def isInRange (value left count : Nat) : Bool := value ≥ left && value < left + count

/-- `deps::isSingleMipView`, 32-40; images are compared by id. -/
def isSingleMipView (sub main : View) : Bool :=
  main.image.id == sub.image.id && isInRange sub.range.baseMip main.range.baseMip main.range.levels
    && sub.range.levels == 1

/-- `deps::getInputView`, 42-54. -/
def getInputView (l r : View) : View := if l.id == r.id || isSingleMipView l r then l else r

/-- `deps::getOutputView`, 56-67. -/
def getOutputView (l r : View) : View := if isSingleMipView l r then r else l

/-- `deps::areIntersecting( lhsLBound, lhsCount, rhsLBound, rhsCount )`, 305-312. -/
def intersecting (lBound lCount rBound rCount : Nat) : Bool :=
  isInRange lBound rBound rCount || isInRange rBound lBound lCount

/-- `deps::areIntersecting( VkImageSubresourceRange, VkImageSubresourceRange )`, 314-325: the last argument is
`lhs.layerCount`. -/
def intersectingRanges (l r : Range) : Bool :=
  intersecting l.baseMip l.levels r.baseMip r.levels && intersecting l.baseLayer l.layers r.baseLayer l.layers

/-- `deps::areOverlapping( ImageViewData, ImageViewData )`, 327-333. -/
def overlappingViews (l r : View) : Bool :=
  l.image.id == r.image.id
    && intersectingRanges (getVirtualRange l.image l.viewType l.range) (getVirtualRange r.image r.viewType r.range)

/-- The image view side of the builder. -/
def viewKind (sources : View → List View) : Kind View where
  get := viewOf
  -- 83-88
  getOutput l r := getOutputView (viewOf l) (viewOf r)
  -- 90-94
  getInput l r := getInputView (viewOf l) (viewOf r)
  split := splitAttach sources
  -- 118-126
  isInput a := a.isInput
  isOutput a := a.isOutput
  same l r := l.id == r.id
  overlap := overlappingViews
  -- 612-615
  agree := matchView
  transData := matchView
  -- 551-552: `isColourInputAttach() || isSampledView()`
  remainingInput a := (a.isInput && !a.isSampledView && !a.isTransitionView && !a.isStorageView && !a.isTransferView
    && !(a.isImage && a.img.isDepth) && !(a.isImage && a.img.isStencil)) || a.isSampledView
  -- Attachment.cpp:441-445, 178-181
  external v := { pass := 0, binding := 0, flags := Flag.image, img := { views := [v] } }
  attaches p := p.images
  outputs v p := viewInOutputs sources p v
  inputs v p := viewInInputs sources p v
  key p v := viewKey p v.id

/-- The buffer side of the builder. -/
def bufferKind : Kind (List Nat) where
  get a := a.buf.buffers
  -- 137-147
  getOutput l _ := l.buf.buffers
  getInput l _ := l.buf.buffers
  -- 154-157
  split a := [a]
  -- 159-164; the `…View` tests are implied by the others
  isInput a := a.isInput && (a.isStorageBuffer || (a.isBuffer && a.buf.isUniform) || a.isTransitionBuffer)
  -- 166-170
  isOutput a := a.isOutput && a.isStorageBuffer
  same l r := l == r
  -- 341-345
  overlap l r := firstBuffer l == firstBuffer r
  -- 608-611
  agree l r := firstBuffer l == firstBuffer r
  transData l r := l == r
  -- 574
  remainingInput a := a.isInput
  -- Attachment.cpp:447-451
  external b := { pass := 0, binding := 0, flags := Flag.buffer, buf := { buffers := b } }
  attaches p := p.buffers
  outputs b p := bufferInOutputs p b
  inputs b p := bufferInInputs p b
  key p b := bufferKey p (firstBuffer b)

variable {D : Type}

/-- `operator==( ViewTransition, ViewTransition )`, `operator==( BufferTransition, BufferTransition )`,
AttachmentTransition.cpp:35-47. -/
def Kind.transEq (K : Kind D) (l r : Trans D) : Bool :=
  K.transData l.data r.data && attachEq l.output r.output && attachEq l.input r.input

/-- `FramePass::dependsOn` of the pass at address `a` on the pass at address `t` for the data. -/
def Kind.dependsOn (K : Kind D) (H : Heap) (a t : Nat) (d : D) (c : Cache) : Bool × Cache :=
  Deps.dependsOn H (K.outputs d) (K.inputs d) (H.pass t).id (K.key (H.pass t).id d) a c

/-! ### Collecting the attachments, FramePassDependenciesBuilder.cpp:184-463 -/

/-- `deps::AttachesT`. -/
structure Attaches (D : Type) where
  data : D
  attaches : List Attachment

/-- `push_back` unless an equal attachment is there. -/
def pushAttach (a : Attachment) (l : List Attachment) : List Attachment :=
  if l.any (fun b => attachEq b a) then l else l ++ [a]

/-- `deps::insertAttach`, 355-382: into the first entry with this data, or into a new one. -/
def Kind.insertAttach (K : Kind D) (a : Attachment) : List (Attaches D) → List (Attaches D)
  | [] => [⟨K.get a, pushAttach a []⟩]
  | x :: xs => if K.same x.data (K.get a) then ⟨x.data, pushAttach a x.attaches⟩ :: xs else x :: K.insertAttach a xs

/-- `deps::processAttachSource`, 384-396, for all entries. -/
def Kind.addOverlapping (K : Kind D) (a : Attachment) (cont : List (Attaches D)) : List (Attaches D) :=
  cont.map fun x => if K.overlap (K.get a) x.data then ⟨x.data, pushAttach a x.attaches⟩ else x

/-- `deps::processAttach`, 398-422. -/
def Kind.processAttach (K : Kind D) (a : Attachment) (s : List (Attaches D) × List (Attaches D)) :
    List (Attaches D) × List (Attaches D) :=
  (K.split a).foldl (fun s x => (K.insertAttach x (K.addOverlapping x s.1), K.insertAttach x s.2)) s

/-- `deps::processInputAttachs`, `deps::processOutputAttachs`, 424-463, for the attachments that pass the test. -/
def Kind.processAttachs (K : Kind D) (sel : Attachment → Bool) (as : List Attachment)
    (s : List (Attaches D) × List (Attaches D)) : List (Attaches D) × List (Attaches D) :=
  as.foldl (fun s a => if sel a then K.processAttach a s else s) s

/-- `inputs`, `outputs`, `all` after the loop of `buildPassAttachDependencies`, 749-766. -/
def Kind.collect (K : Kind D) (H : Heap) (nodes : List Nat) :
    List (Attaches D) × List (Attaches D) × List (Attaches D) :=
  nodes.foldl (fun s n =>
    let i := K.processAttachs K.isInput (K.attaches (H.pass n)) (s.1, s.2.2)
    let o := K.processAttachs K.isOutput (K.attaches (H.pass n)) (s.2.1, i.2)
    (i.1, o.1, o.2)) ([], [], [])

/-! ### Transitions -/

/-- `deps::dependsOn( transition, other, cache )`, 493-503: the other transition is ignored. -/
def Kind.carries (K : Kind D) (H : Heap) (t : Trans D) (c : Cache) : Bool × Cache :=
  if t.input.pass ≠ 0 ∧ t.output.pass ≠ 0 then K.dependsOn H t.input.pass t.output.pass t.data c else (false, c)

/-- The first `find_if` of `insertTransition`, 511-521: `none` when it reaches the end. -/
def Kind.insertBefore (K : Kind D) (H : Heap) (t : Trans D) : List (Trans D) → Cache → Option (List (Trans D)) × Cache
  | [], c => (none, c)
  | x :: xs, c =>
    let r := K.carries H x c
    if r.1 then (some (t :: x :: xs), r.2)
    else
      let q := K.insertBefore H t xs r.2
      (q.1.map (x :: ·), q.2)

/-- The second `find_if`, 524-531, from the end: every test is `dependsOn( transition, … )`, which doesn't depend
on the element, so that it succeeds on the last element or, having failed there, is answered from the cache. -/
def Kind.insertAfter (K : Kind D) (H : Heap) (t : Trans D) : List (Trans D) → Cache → Option (List (Trans D)) × Cache
  | [], c => (none, c)
  | x :: xs, c =>
    -- `(x :: xs)` is the list reversed
    let r := K.carries H t c
    if r.1 then (some ((x :: xs).reverse ++ [t]), r.2)
    else
      let q := K.insertAfter H t xs r.2
      (q.1.map (· ++ [x]), q.2)

/-- `deps::insertTransition`, 505-542. -/
def Kind.insertTransition (K : Kind D) (H : Heap) (t : Trans D) (ts : List (Trans D)) (c : Cache) :
    List (Trans D) × Cache :=
  if ts.any (fun x => K.transEq x t) then (ts, c)
  else
    let q := K.insertBefore H t ts c
    match q.1 with
    | some r => (r, q.2)
    | none =>
      let q := K.insertAfter H t ts.reverse q.2
      match q.1 with
      | some r => (r, q.2)
      | none => (ts ++ [t], q.2)

/-- One half (views or buffers) of `FramePassDependencies`, BuilderCommon.hpp: transitions by pass. The two halves
never interact. -/
abbrev PassTrans (D : Type) := List (Nat × List (Trans D))

/-- `deps::insertPass`, 474-491, then an update of the transitions of the pass by `f`. -/
def updatePass {S : Type} (p : Nat) (f : List (Trans D) → S → List (Trans D) × S) :
    PassTrans D → S → PassTrans D × S
  | [], s => let r := f [] s; ([(p, r.1)], r.2)
  | (q, ts) :: xs, s =>
    if q = p then let r := f ts s; ((q, r.1) :: xs, r.2)
    else let r := updatePass p f xs s; ((q, ts) :: r.1, r.2)

/-- The containers filled by the builder. -/
structure Built (D : Type) where
  ins : PassTrans D
  outs : PassTrans D
  all : List (Trans D)
  cache : Cache

/-- `deps::addDependency`, 618-644. -/
def Kind.addDependency (K : Kind D) (H : Heap) (o i : Attachment) (b : Built D) : Built D :=
  let ti : Trans D := ⟨K.getInput o i, o, i⟩
  let to : Trans D := ⟨K.getOutput o i, o, i⟩
  let r := K.insertTransition H ti b.all b.cache
  let r := if !K.agree (K.get o) (K.get i) then K.insertTransition H to r.1 r.2 else r
  let x := updatePass i.pass (K.insertTransition H ti) b.ins r.2
  let y := updatePass o.pass (K.insertTransition H to) b.outs x.2
  ⟨x.1, y.1, r.1, y.2⟩

/-- `deps::buildPassDependency`, 646-665. -/
def Kind.buildPair (K : Kind D) (H : Heap) (o i : Attachment) (b : Built D) : Built D :=
  let r := K.dependsOn H i.pass o.pass (K.getOutput i o) b.cache
  let b := { b with cache := r.2 }
  if r.1 then K.addDependency H o i b else b

/-- `all.erase( it )` of the first entry with this data, 694-707. -/
def Kind.eraseData (K : Kind D) (d : D) (all : List (Attaches D)) : List (Attaches D) :=
  all.eraseP fun x => K.same x.data d

/-- `deps::buildPassDependencies( input, output, … )`, 667-709. -/
def Kind.buildEntry (K : Kind D) (H : Heap) (o i : Attaches D) (s : Built D × List (Attaches D)) :
    Built D × List (Attaches D) :=
  if K.overlap i.data o.data then
    (o.attaches.foldl (fun b oa => i.attaches.foldl (fun b ia => K.buildPair H oa ia b) b) s.1,
      K.eraseData i.data s.2)
  else s

/-- `deps::addRemainingDependency`, 544-586: the transition handed to `allTransitions` is the last one of the pass,
which isn't the new one when that was inserted before. -/
def Kind.addRemaining (K : Kind D) (H : Heap) (a : Attachment) (b : Built D) : Built D :=
  let t : Trans D :=
    if K.remainingInput a then ⟨K.get a, K.external (K.get a), a⟩ else ⟨K.get a, a, K.external (K.get a)⟩
  let x := updatePass a.pass (fun ts s => let r := K.insertTransition H t ts s.2; (r.1, (r.1.getLast?, r.2)))
    b.ins (none, b.cache)
  match x.2.1 with
  | none => { b with ins := x.1, cache := x.2.2 }
  | some l =>
    let r := K.insertTransition H l b.all x.2.2
    { b with ins := x.1, all := r.1, cache := r.2 }

/-- `deps::buildPassDependencies( inputs, outputs, all, … )`, 711-739. -/
def Kind.buildAll (K : Kind D) (H : Heap) (s : List (Attaches D) × List (Attaches D) × List (Attaches D))
    (b : Built D) : Built D :=
  let r := s.2.1.foldl (fun r o => s.1.foldl (fun r i => K.buildEntry H o i r) r) (b, s.2.2)
  r.2.foldl (fun b x => x.attaches.foldl (fun b a => K.addRemaining H a b) b) r.1

/-- `buildPassAttachDependencies`, 742-784, for one kind of data. -/
def Kind.build (K : Kind D) (H : Heap) (nodes : List Nat) : Built D :=
  K.buildAll H (K.collect H nodes) ⟨nodes.map fun n => (n, []), nodes.map fun n => (n, []), [], Cache.empty⟩

/-! ### The graph, GraphBuilder.cpp, GraphNode.cpp. The root is node 0. -/

/-- `AttachmentTransitions`. -/
structure AttTrans where
  views : List (Trans View) := []
  buffers : List (Trans (List Nat)) := []

/-- `next` and `inputAttaches` of all nodes. -/
structure Graph where
  next : Nat → List Nat
  prev : Nat → List (Nat × AttTrans)

def Graph.empty : Graph := ⟨fun _ => [], fun _ => []⟩

/-- `mergeIdenticalTransitionsT`, AttachmentTransition.cpp:15-31. -/
def Kind.mergeIdentical (K : Kind D) (ts : List (Trans D)) : List (Trans D) :=
  ts.foldl (fun r t => if r.any (fun x => K.transEq x t) then r else r ++ [t]) []

/-- One `for` of `GraphNode::addAttaches`, GraphNode.cpp:44-68: the new transitions not there yet; true when there
was one. -/
def Kind.appendNew (K : Kind D) (mine new : List (Trans D)) : List (Trans D) × Bool :=
  new.foldl (fun r t => if r.1.any (fun x => K.transEq x t) then r else (r.1 ++ [t], true)) (mine, false)

/-- The new value of `inputAttaches[prev]` in `GraphNode::addAttaches`, GraphNode.cpp:38-74. -/
def addAttaches (sources : View → List View) (mine new : AttTrans) : AttTrans :=
  let v := (viewKind sources).appendNew mine.views new.views
  let b := bufferKind.appendNew mine.buffers new.buffers
  if v.2 || b.2 then ⟨(viewKind sources).mergeIdentical v.1, bufferKind.mergeIdentical b.1⟩ else ⟨v.1, b.1⟩

/-- `inputAttaches[prev]` updated, created empty when absent. -/
def updatePrev (p : Nat) (f : AttTrans → AttTrans) : List (Nat × AttTrans) → List (Nat × AttTrans)
  | [] => [(p, f {})]
  | (q, t) :: xs => if q = p then (q, f t) :: xs else (q, t) :: updatePrev p f xs

/-- `GraphNode::attachNode`, GraphNode.cpp:76-89. -/
def Graph.attach (sources : View → List View) (g : Graph) (a b : Nat) (t : AttTrans) : Graph where
  next := fun x => if x = a then (if b ∈ g.next a then g.next a else g.next a ++ [b]) else g.next x
  prev := fun x => if x = b then updatePrev a (fun m => addAttaches sources m t) (g.prev b) else g.prev x

/-- `graph::buildGraph`, GraphBuilder.cpp:47-67. `findNode` (15-35) returns null for a null pass; a pass that isn't a
node is undefined behaviour and doesn't happen, transitions being made from the attachments of the nodes. -/
def Kind.buildEdges (K : Kind D) (sources : View → List View) (H : Heap) (wrap : Trans D → AttTrans)
    (ts : List (Trans D)) (s : Graph × Cache) : Graph × Cache :=
  ts.foldl (fun s t =>
    if t.input.pass ≠ 0 ∧ t.output.pass ≠ 0 then
      let r := K.dependsOn H t.input.pass t.output.pass t.data s.2
      (if r.1 then s.1.attach sources t.output.pass t.input.pass (wrap t) else s.1, r.2)
    else s) s

/-- `buildGraph`, GraphBuilder.cpp:70-87. -/
def buildGraph (sources : View → List View) (H : Heap) (nodes : List Nat) (views : Built View)
    (buffers : Built (List Nat)) : Graph :=
  let g := ((viewKind sources).buildEdges sources H (fun t => { views := [t] }) views.all
    (Graph.empty, views.cache)).1
  let g := (bufferKind.buildEdges sources H (fun t => { buffers := [t] }) buffers.all (g, buffers.cache)).1
  nodes.foldl (fun g n => if (g.prev n).isEmpty then g.attach sources 0 n {} else g) g

/-- The graph part of `FrameGraph::compile`, FrameGraph.cpp:203-229, for sorted passes. -/
def compileGraph (sources : View → List View) (H : Heap) (nodes : List Nat) : Graph :=
  buildGraph sources H nodes ((viewKind sources).build H nodes) (bufferKind.build H nodes)

end Verif.Deps
