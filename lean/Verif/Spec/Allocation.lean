import Verif.Model.Allocation
import Verif.Spec.Context
/-
What memory must be like, written from the Vulkan specification: VUID-vkBindImageMemory-memory-01047/01048/01049 (and their buffer
counterparts), VUID-vkMapMemory-memory-00682, the vertex input rules ("Vertex Input Address Calculation").
-/
namespace Verif.Mem

/-- A memory type the driver allows (`memoryTypeBits` has its bit) with all the wanted properties (Spec/Context.lean). -/
def Suitable (d : Device) (typeBits wanted t : Nat) : Prop := Ctx.Suitable d.memoryTypes typeBits wanted t

/-- State of the memory as the calls go: what is allocated, what is bound, mapped, written, visible to the device. -/
structure Track where
  /-- size and type -/
  memory : Option (Nat × Nat) := none
  bound : Option Nat := none
  mapped : Option Nat := none
  /-- written by the host, latest first -/
  host : List (Nat × Int) := []
  /-- visible to the device -/
  device : List (Nat × Int) := []

/-- The effect of a call. -/
def Track.step (s : Track) : Call → Track
  | .allocate n t => { s with memory := some (n, t) }
  | .bind o => { s with bound := some o }
  | .map o => { s with mapped := some o }
  | .write o v => { s with host := (s.mapped.getD 0 + o, v) :: s.host }
  | .flush o => { s with device := s.host.filter (fun w => decide (o ≤ w.1)) }
  | .unmap => { s with mapped := none }

/-- The state after calls. -/
def track (calls : List Call) : Track := calls.foldl Track.step {}

/-- The rules for a call, in the state before it, for an object with requirements `r`. -/
def Allowed (d : Device) (r : Requirements) (s : Track) : Call → Prop
  | .allocate n t => 0 < n ∧ t < d.memoryTypes.length
  | .bind o => s.bound = none ∧ ∃ n t, s.memory = some (n, t) ∧ o < n ∧ r.size ≤ n - o ∧ r.alignment ∣ o ∧
      r.typeBits.testBit t = true
  | .map o => s.mapped = none ∧ ∃ n t flags, s.memory = some (n, t) ∧ o < n ∧ d.memoryTypes[t]? = some flags ∧
      flags.testBit 1 = true
  | .write o _ => ∃ m n t, s.mapped = some m ∧ s.memory = some (n, t) ∧ m + o + 4 ≤ n
  | .flush o => ∃ m, s.mapped = some m ∧ m ≤ o
  | .unmap => s.mapped ≠ none

/-- All calls are allowed. -/
def AllAllowed (d : Device) (r : Requirements) (calls : List Call) : Prop :=
  ∀ before c after, calls = before ++ c :: after → Allowed d r (track before) c

/-- What the device sees at an address of the buffer. -/
def Track.read (s : Track) (address : Nat) : Option Int := (s.device.find? (fun w => w.1 == address)).map (·.2)

/-- What the vertex shader gets for vertex `i` in an input variable: two floats at stride * i + offset. -/
def fetch (s : Track) (inp : Input) (i location : Nat) : Option (Option Int × Option Int) :=
  (inp.attribs.find? (fun a => a.location == location)).map fun a =>
    let base := s.bound.getD 0 + inp.stride * i + a.offset
    (s.read base, s.read (base + 4))

end Verif.Mem
