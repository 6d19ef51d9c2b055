/-!
# Context services and compute dispatch

Models `GraphContext::deduceMemoryType` (source/RenderGraph/GraphContext.cpp 247-263), the register
of live objects (`doRegisterObject` 307-334, `doUnregisterObject` 362-391) and the dispatch of
`ComputePass` (source/RenderGraph/RunnablePasses/ComputePass.cpp 30-42, 84-107).
-/
namespace Verif.Ctx

/-! ## Memory types -/

/-- The loop of `deduceMemoryType`, 250-259: `flags` are the property flags of the memory types from
index `i` on; `bits` is shifted at each step. `none`: the exception. -/
def deduceFrom (i : Nat) (bits req : Nat) : List Nat → Option Nat
  | [] => none
  | f :: fs =>
    if bits &&& 1 = 1 ∧ f &&& req = req then some i else deduceFrom (i + 1) (bits >>> 1) req fs

/-- `GraphContext::deduceMemoryType`, 247-263. -/
def deduceMemoryType (types : List Nat) (typeBits requirements : Nat) : Option Nat :=
  deduceFrom 0 typeBits requirements types

/-! ## Live objects -/

/-- `m_allocated`, an `unordered_map` from handle value to the data of the object: here its type and
name. At most one entry per value. -/
abbrev Registry := List (Nat × (Nat × Nat))

/-- A history: an object is a handle value, a type and a name. -/
inductive Op where
  | register (value type name : Nat)
  | unregister (value type : Nat)
  deriving DecidableEq, Repr

/-- `doRegisterObject` 329-333 (`insert_or_assign`), `doUnregisterObject` 362-391 (the type is not
looked at; a null handle is ignored). Call stacks, traces and debug names are not modelled. -/
def Registry.apply (m : Registry) : Op → Registry
  | .register v t n => m.filter (fun e => e.1 != v) ++ [(v, (t, n))]
  | .unregister v _ => if v = 0 then m else m.filter (fun e => e.1 != v)

/-! ## Compute dispatch -/

/-- `cp::ConfigT< std::optional >`: group counts and callbacks, each maybe given.
A callback is the value it returns. -/
structure Config where
  countX : Option Nat := none
  countY : Option Nat := none
  countZ : Option Nat := none
  getX : Option Nat := none
  getY : Option Nat := none
  getZ : Option Nat := none
  /-- the indirect buffer: handle (0: none) and offset -/
  indirect : Option (Nat × Nat) := none

/-- What is recorded. `undefined`: an empty `std::optional` is dereferenced. -/
inductive Dispatch where
  | direct (x y z : Nat)
  | indirect (buffer offset : Nat)
  | undefined
  deriving DecidableEq, Repr

/-- The constructor gives 1 to counts that are not given, ComputePass.cpp 36-38. -/
def count (c : Option Nat) : Nat := c.getD 1

/-- `ComputePass::doRecordInto`, ComputePass.cpp 91-103: for Y and Z too, the callback called is
that of X (lines 99-100). -/
def dispatch (c : Config) : Dispatch :=
  let ib := c.indirect.getD (0, 0)
  if ib.1 ≠ 0 then .indirect ib.1 ib.2
  else
    let x := match c.getX with | some v => v | none => count c.countX
    let y : Option Nat := match c.getY with | some _ => c.getX | none => some (count c.countY)
    let z : Option Nat := match c.getZ with | some _ => c.getX | none => some (count c.countZ)
    match y, z with
    | some y, some z => .direct x y z
    | _, _ => .undefined

end Verif.Ctx
