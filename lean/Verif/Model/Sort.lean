/-
Model of the pass ordering done by `FrameGraph::compile`.
Modelled code: /repo/source/RenderGraph/FrameGraph.cpp:22-111 (`fgph::sortPasses`), 190-203 (`compile` guard),
/repo/source/RenderGraph/FramePass.cpp:266-275 (`FramePass::dependsOn(FramePass const &)`).
-/
namespace Verif.Sort

/-- A `FramePass const *`: the object identity (`addr`) and the immutable `id` of the pointee.
FramePass.hpp:670 (`passDepends`), FramePass.hpp (`uint32_t id`). `uint32_t` ids are `Nat`. -/
structure Ref where
  addr : Nat
  id : Nat
deriving DecidableEq, Repr

/-- A `FramePass`, restricted to what the ordering reads: identity, id, `passDepends`
(FramePass.hpp:41-51, 670). The attachments are irrelevant to the ordering. -/
structure Pass where
  addr : Nat
  id : Nat
  deps : List Ref
deriving DecidableEq, Repr

/-- `FramePass::dependsOn( FramePass const & pass )`, FramePass.cpp:266-275: compares *ids*. -/
def dependsOn (p q : Pass) : Bool := p.deps.any (fun d => d.id == q.id)

/-- `std::find( sortedPasses.begin(), sortedPasses.end(), lookup ) != end`, FrameGraph.cpp:58-60:
compares *pointers*. -/
def isSorted (sorted : List Pass) (d : Ref) : Bool := sorted.any (fun q => q.addr == d.addr)

/-- `find_if( begin, end, pred )` followed by `insert( it, pass )`, FrameGraph.cpp:68-77.
`none` when `find_if` returns `end`. -/
def insertBeforeFirst (pred : Pass → Bool) (x : Pass) : List Pass → Option (List Pass)
  | [] => none
  | y :: ys =>
    if pred y then some (x :: y :: ys) else (insertBeforeFirst pred x ys).map (y :: ·)

/-- `find_if( rbegin, rend, pred )` followed by `insert( rit.base(), pass )`, FrameGraph.cpp:83-92.
`none` when `find_if` returns `rend`. -/
def insertAfterLast (pred : Pass → Bool) (x : Pass) : List Pass → Option (List Pass)
  | [] => none
  | y :: ys =>
    match insertAfterLast pred x ys with
    | some r => some (y :: r)
    | none => if pred y then some (y :: x :: ys) else none

/-- The state of one round of the `while` loop, FrameGraph.cpp:46-50. -/
structure RoundState where
  sorted : List Pass
  unsorted : List Pass
  added : Bool

/-- Body of the `for ( auto & pass : currentPasses )` loop, FrameGraph.cpp:52-100, as built with
`NDEBUG`: when no branch applies the pass is silently dropped (a debug build asserts there). -/
def processPass (s : RoundState) (p : Pass) : RoundState :=
  if ! p.deps.all (isSorted s.sorted) then
    { s with unsorted := s.unsorted ++ [p] }
  else match insertBeforeFirst (fun l => dependsOn l p) p s.sorted with
    | some r => { s with sorted := r, added := true }
    | none =>
      match insertAfterLast (fun l => dependsOn p l) p s.sorted with
      | some r => { s with sorted := r, added := true }
      | none => s

/-- One iteration of `while ( !unsortedPasses.empty() )`, FrameGraph.cpp:46-100. -/
def round (sorted current : List Pass) : RoundState :=
  current.foldl processPass { sorted := sorted, unsorted := [], added := false }

/-- Outcomes other than success. -/
inductive Error where
  /-- `CRG_Exception( "Couldn't sort passes" )`, FrameGraph.cpp:105 -/
  | couldntSort
  /-- `CRG_Exception( "No FramePass registered." )`, FrameGraph.cpp:199 -/
  | noPass
  /-- `unsortedPasses.front()` on an empty vector, FrameGraph.cpp:42 (undefined behaviour) -/
  | undefinedBehaviour
deriving DecidableEq, Repr

theorem processPass_unsorted_le (s : RoundState) (p : Pass) :
    (processPass s p).unsorted.length + (if (processPass s p).added && !s.added then 1 else 0)
      ≤ s.unsorted.length + 1 := by
  unfold processPass
  split
  · simp
  · split
    · simp; split <;> omega
    · split
      · simp; split <;> omega
      · simp

theorem foldl_unsorted_le (c : List Pass) (s : RoundState) :
    (c.foldl processPass s).unsorted.length
        + (if (c.foldl processPass s).added && !s.added then 1 else 0)
      ≤ s.unsorted.length + c.length := by
  induction c generalizing s with
  | nil => simp
  | cons p ps ih =>
    simp only [List.foldl_cons, List.length_cons]
    have h1 := processPass_unsorted_le s p
    have h2 := ih (processPass s p)
    rcases Bool.eq_false_or_eq_true (processPass s p).added with e1 | e1 <;>
    rcases Bool.eq_false_or_eq_true s.added with e2 | e2 <;>
    rcases Bool.eq_false_or_eq_true (List.foldl processPass (processPass s p) ps).added with e3 | e3 <;>
    simp [e1, e2, e3] at h1 h2 ⊢ <;> omega

theorem round_decreases (sorted current : List Pass) (h : (round sorted current).added = true) :
    (round sorted current).unsorted.length < current.length := by
  have := foldl_unsorted_le current { sorted := sorted, unsorted := [], added := false }
  unfold round at *
  simp [h] at this
  omega

/-- The `while` loop, FrameGraph.cpp:46-108. Termination is by the number of unsorted passes, which
strictly decreases whenever `added` is set (`round_decreases`). -/
def sortLoop (sorted unsorted : List Pass) : Except Error (List Pass) :=
  if unsorted.isEmpty then .ok sorted
  else
    if h : (round sorted unsorted).added = true then
      have := round_decreases sorted unsorted h
      sortLoop (round sorted unsorted).sorted (round sorted unsorted).unsorted
    else .error .couldntSort
termination_by unsorted.length

/-- `fgph::sortPasses`, FrameGraph.cpp:22-111. -/
def sortPasses (passes : List Pass) : Except Error (List Pass) :=
  let sorted := passes.filter (fun p => p.deps.isEmpty)
  let unsorted := passes.filter (fun p => ! p.deps.isEmpty)
  if sorted.isEmpty then
    match unsorted with
    | [] => .error .undefinedBehaviour
    | p :: ps => sortLoop [p] ps
  else sortLoop sorted unsorted

/-- The ordering part of `FrameGraph::compile`, FrameGraph.cpp:190-201: the guard on an empty pass list
followed by `sortPasses`. -/
def compileOrder (passes : List Pass) : Except Error (List Pass) :=
  if passes.isEmpty then .error .noPass else sortPasses passes

end Verif.Sort
