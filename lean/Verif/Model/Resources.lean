import Verif.Model.Vk
/-
Model of ids, images, views, samplers and vertex buffers.
Modelled code: /repo/source/RenderGraph/ResourceHandler.cpp:76-100 (keys), 137-170 (ids), 172-256 (images and views),
258-300 and 302-411 (samplers, vertex buffers), 413-511 (destruction), 520-641 (`ContextResourcesCache`);
/repo/include/RenderGraph/ImageViewData.hpp:40-65 (equality), Id.hpp (ids are compared by number).
Simplifications: the driver always succeeds and never returns twice the same handle; the functions of the context and
the device are not null; calls don't overlap (each is under a mutex). Memory objects live and die with their image or
buffer and are not shown.
-/
namespace Verif.Res

/-! ### Ids -/

/-- What two views are compared by: `operator==( ImageViewData, ImageViewData )`. -/
structure ViewDesc where
  image : Nat
  flags : Nat
  viewType : ViewType
  format : Nat
  range : Range
deriving DecidableEq, Repr

/-- `ImageViewData`: the compared part, and the rest (name, components, source views). -/
structure ViewData where
  desc : ViewDesc
  components : Nat := 0
  source : List Nat := []
deriving DecidableEq, Repr

/-- `m_imageIds`, `m_imageViewIds`: maps ordered by id; entries are added in this order. The data of an image is opaque
(a number). -/
structure Ids where
  images : List (Nat × Nat) := []
  views : List (Nat × ViewData) := []

/-- `map::try_emplace`. -/
def tryEmplace {A : Type} (m : List (Nat × A)) (k : Nat) (a : A) : List (Nat × A) :=
  if m.any (fun e => e.1 == k) then m else m ++ [(k, a)]

/-- `ResourceHandler::createImageId`, ResourceHandler.cpp:137-144: `uint32_t( size + 1 )`. -/
def createImageId (s : Ids) (d : Nat) : Nat × Ids :=
  let id := (s.images.length + 1) % 2 ^ 32
  (id, { s with images := tryEmplace s.images id d })

/-- `ResourceHandler::createViewId`, ResourceHandler.cpp:146-170. -/
def createViewId (s : Ids) (v : ViewData) : Nat × Ids :=
  match s.views.find? (fun e => e.2.desc == v.desc) with
  | some e => (e.1, s)
  | none =>
    let id := (s.views.length + 1) % 2 ^ 32
    (id, { s with views := tryEmplace s.views id v })

/-- A call. -/
inductive IdOp where
  | image (d : Nat)
  | view (v : ViewData)

def idStep (s : Ids) : IdOp → Nat × Ids
  | .image d => createImageId s d
  | .view v => createViewId s v

/-- The ids returned by a series of calls, and the final state. -/
def idRun : Ids → List IdOp → List Nat × Ids
  | s, [] => ([], s)
  | s, op :: ops =>
    let r := idStep s op
    let q := idRun r.2 ops
    (r.1 :: q.1, q.2)

/-! ### Images and views -/

/-- What the driver sees: creation and destruction, by the device of a context. -/
inductive Event where
  | create (ctx handle : Nat)
  | destroy (ctx handle : Nat)
deriving DecidableEq, Repr

/-- The state of the handler: `m_images`, `m_imageViews` (id → handle), the next handle of the driver, the calls made. -/
structure Handler where
  images : List (Nat × Nat) := []
  views : List (Nat × Nat) := []
  next : Nat := 1
  log : List Event := []

def find (m : List (Nat × Nat)) (k : Nat) : Option Nat := (m.find? fun e => e.1 == k).map (·.2)
def erase (m : List (Nat × Nat)) (k : Nat) : List (Nat × Nat) := m.filter fun e => e.1 != k

/-- `ResourceHandler::createImage`, 172-227: the handle and whether it was created. -/
def Handler.createImage (s : Handler) (ctx i : Nat) : (Nat × Bool) × Handler :=
  match find s.images i with
  | some h => ((h, false), s)
  | none =>
    ((s.next, true), { s with images := s.images ++ [(i, s.next)], next := s.next + 1, log := s.log ++ [.create ctx s.next] })

/-- `ResourceHandler::createImageView`, 229-256, for a view of image `i`: whether the image was created is ignored. -/
def Handler.createView (s : Handler) (ctx v i : Nat) : (Nat × Bool) × Handler :=
  match find s.views v with
  | some h => ((h, false), s)
  | none =>
    let s := (s.createImage ctx i).2
    ((s.next, true), { s with views := s.views ++ [(v, s.next)], next := s.next + 1, log := s.log ++ [.create ctx s.next] })

/-- `ResourceHandler::destroyImage`, 413-433. -/
def Handler.destroyImage (s : Handler) (ctx i : Nat) : Handler :=
  match find s.images i with
  | some h => { s with images := erase s.images i, log := s.log ++ [.destroy ctx h] }
  | none => s

/-- `ResourceHandler::destroyImageView`, 435-450. -/
def Handler.destroyView (s : Handler) (ctx v : Nat) : Handler :=
  match find s.views v with
  | some h => { s with views := erase s.views v, log := s.log ++ [.destroy ctx h] }
  | none => s

/-- `ContextResourcesCache`: the keys of `m_images` and `m_imageViews` (the handles stored are never read). -/
structure Cache where
  images : List Nat := []
  views : List Nat := []

/-- The handler and the caches, one for each context. -/
structure State where
  handler : Handler := {}
  caches : Nat → Cache := fun _ => {}

/-- The methods of `ContextResourcesCache`, 543-591, and its destructor, 520-541. -/
inductive Op where
  | createImage (c i : Nat)
  | createView (c v i : Nat)
  | destroyImage (c i : Nat)
  | destroyView (c v : Nat)
  | close (c : Nat)
deriving DecidableEq, Repr

def setCache (f : Nat → Cache) (c : Nat) (x : Cache) : Nat → Cache := fun d => if d = c then x else f d

/-- `m_images[image] = result`: the key is added. -/
def addKey (k : Nat) (l : List Nat) : List Nat := if k ∈ l then l else l ++ [k]

def step (s : State) : Op → State
  | .createImage c i =>
    let r := s.handler.createImage c i
    { handler := r.2
      caches := if r.1.2 then setCache s.caches c { s.caches c with images := addKey i (s.caches c).images }
        else s.caches }
  | .createView c v i =>
    let r := s.handler.createView c v i
    { handler := r.2
      caches := if r.1.2 then setCache s.caches c { s.caches c with views := addKey v (s.caches c).views }
        else s.caches }
  | .destroyImage c i =>
    if i ∈ (s.caches c).images then { s with handler := s.handler.destroyImage c i } else s
  | .destroyView c v =>
    if v ∈ (s.caches c).views then { s with handler := s.handler.destroyView c v } else s
  | .close c =>
    let h := (s.caches c).views.foldl (fun h v => h.destroyView c v) s.handler
    let h := (s.caches c).images.foldl (fun h i => h.destroyImage c i) h
    { handler := h, caches := setCache s.caches c {} }

def run (s : State) (ops : List Op) : State := ops.foldl step s

/-- The handle returned by `createImage`. -/
def imageHandle (s : State) (c i : Nat) : Nat := (s.handler.createImage c i).1.1

/-- The handle returned by `createImageView`, for view `v` of image `i`. -/
def viewHandle (s : State) (c v i : Nat) : Nat := (s.handler.createView c v i).1.1

/-! ### Samplers and vertex buffers of one `ContextResourcesCache`: `m_samplers`, `m_vertexBuffers` -/

/-- `reshdl::makeHash( bool, Texcoord )`, 92-99. -/
def quadKey (texCoords invertU invertV : Bool) : Nat :=
  (if texCoords then 1 else 0) ||| (if invertU then 1 else 0) <<< 1 ||| (if invertV then 1 else 0) <<< 2

/-- A cache keyed by hash, `createSampler` 593-607 and `createQuadTriVertexBuffer` 609-623; each entry remembers the
handle and for what it was created. -/
structure Keyed (A : Type) where
  entries : List (Nat × Nat × A) := []
  next : Nat := 1

def Keyed.get {A : Type} (hash : A → Nat) (s : Keyed A) (a : A) : Nat × Keyed A :=
  match s.entries.find? (fun e => e.1 == hash a) with
  | some e => (e.2.1, s)
  | none => (s.next, { entries := s.entries ++ [(hash a, s.next, a)], next := s.next + 1 })

def Keyed.run {A : Type} (hash : A → Nat) : Keyed A → List A → List Nat × Keyed A
  | s, [] => ([], s)
  | s, a :: as =>
    let r := s.get hash a
    let q := Keyed.run hash r.2 as
    (r.1 :: q.1, q.2)

/-- The destructor destroys the handles of all entries, 532-540. -/
def Keyed.destroyed {A : Type} (s : Keyed A) : List Nat := s.entries.map (·.2.1)

/-- The parts of `SamplerDesc`: filters and modes, then the bit patterns of the three floats. -/
structure SamplerDesc where
  modes : Nat
  mipLodBias : BitVec 32
  minLod : BitVec 32
  maxLod : BitVec 32
deriving DecidableEq

/-! ### The quad triangle, ResourceHandler.cpp:362-381 -/

/-- A vertex: position and texture coordinates. -/
structure Vertex where
  x : Int
  y : Int
  u : Int
  v : Int
deriving DecidableEq, Repr

/-- The three vertices written to the buffer. -/
def quadVertices (invertU invertV : Bool) : List Vertex :=
  let minU : Int := 0
  let maxU := minU + 2 * 1
  let minV : Int := -1
  let maxV := minV + 2 * 1
  let realMinU := if invertU then maxU else minU
  let realMaxU := if invertU then minU else maxU
  let realMinV := if invertV then maxV else minV
  let realMaxV := if invertV then minV else maxV
  [⟨-1, -3, realMinU, realMinV⟩, ⟨-1, 1, realMinU, realMaxV⟩, ⟨3, 1, realMaxU, realMaxV⟩]

end Verif.Res
