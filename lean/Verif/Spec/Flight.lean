import Verif.Model.Flight
/-
C101: what the device does with the calls, and what Vulkan asks about the objects commands in flight use.
-/
namespace Verif.Flight

/-- The device: for each graph the objects its submission in flight uses (none: nothing in flight), and the objects destroyed so
far, and what was freed of the graphs. -/
structure Dev where
  pending : Nat → Option (List Obj)
  gone : List Obj
  freed : List (Part × Nat)

def Dev.init : Dev := ⟨fun _ => none, [], []⟩

/-- From `d` to `d'` some of the submissions in flight finished. -/
def Finishing (d d' : Dev) : Prop :=
  d'.gone = d.gone ∧ d'.freed = d.freed ∧ ∀ g, d'.pending g = d.pending g ∨ d'.pending g = none

/-- The effect of a call. -/
def Dev.after (d : Dev) : Call → Dev
  | .waitForever g => { d with pending := fun h => if h = g then none else d.pending h }
  | .submit g uses => { d with pending := fun h => if h = g then some uses else d.pending h }
  | .destroy o => { d with gone := o :: d.gone }
  | .free p g => { d with freed := (p, g) :: d.freed }
  | .resetFence _ | .resetCmd _ | .update _ => d

/-- No submission in flight uses the object. -/
def Dev.Idle (d : Dev) (o : Obj) : Prop := ∀ g uses, d.pending g = some uses → o ∉ uses

/-- What Vulkan asks: an object is destroyed once, and not while a submission in flight uses it
(VUID-vkDestroyPipeline-pipeline-00765, VUID-vkDestroyRenderPass-renderPass-00873, VUID-vkDestroyFramebuffer-framebuffer-00892,
VUID-vkDestroyDescriptorPool-descriptorPool-00303); a descriptor set is not changed while a submission in flight uses it
(VUID-vkUpdateDescriptorSets-None-03047; that the set exists is C35); what is submitted uses no object destroyed before; the fence and the command buffer of a
graph are reset when nothing of the graph is in flight; what a graph owns is freed once, not while a submission of the graph is in
flight (VUID-vkDestroyFence-fence-01120, VUID-vkFreeCommandBuffers-pCommandBuffers-00047, VUID-vkDestroyQueryPool-queryPool-00793),
and not used afterwards. -/
def Ok (d : Dev) : Call → Prop
  | .waitForever g => (.fence, g) ∉ d.freed
  | .resetFence g => d.pending g = none ∧ (.fence, g) ∉ d.freed
  | .resetCmd g => d.pending g = none ∧ (.commandBuffer, g) ∉ d.freed
  | .submit g uses => d.pending g = none ∧ (∀ o ∈ uses, o ∉ d.gone) ∧ (.fence, g) ∉ d.freed ∧ (.commandBuffer, g) ∉ d.freed
  | .free p g => d.pending g = none ∧ (p, g) ∉ d.freed
  | .destroy o => o ∉ d.gone ∧ d.Idle o
  | .update o => d.Idle o

/-- Each call is allowed, whatever the device has finished by then. -/
def Safe (d : Dev) : List Call → Prop
  | [] => True
  | c :: cs => ∀ d', Finishing d d' → Ok d' c ∧ Safe (d'.after c) cs

/-- How a user may change the programs of passes. `busy`: the graphs run and not waited for since (recording a graph waits for
it); `late`: those among them that had a program changed meanwhile.
While a graph is in flight the program of one of its quad or mesh passes is changed only if this doesn't make the pass build a
render pass; and from then on no other graph is run until this one has been waited for, recorded or run. A graph is destroyed when it isn't in flight. -/
def Tidy (kind : Nat → Nat → Pipe.Kind) (busy late : List Nat) : List Op → Prop
  | [] => True
  | .wait g :: os | .record g _ :: os => Tidy kind (busy.filter (· ≠ g)) (late.filter (· ≠ g)) os
  | .run g _ :: os => (∀ h ∈ late, h = g) ∧ Tidy kind (g :: busy) [] os
  | .reset g k _ _ again :: os =>
    (g ∈ busy → ∀ i, again = some (i, true) → kind g k = .compute) ∧
      Tidy kind busy (if g ∈ busy then g :: late else late) os
  | .destroy g _ :: os => g ∉ busy ∧ Tidy kind busy late os

/-- The graph of an operation. -/
def Op.graph : Op → Nat
  | .wait g | .record g _ | .run g _ | .reset g _ _ _ _ | .destroy g _ => g

/-- The user does nothing with a graph destroyed before. -/
def Alive (dead : List Nat) : List Op → Prop
  | [] => True
  | .destroy g _ :: os => g ∉ dead ∧ Alive (g :: dead) os
  | o :: os => o.graph ∉ dead ∧ Alive dead os

/-- A recording records a pass once (the passes of a graph are recorded one after the other, C66), and a pass is destroyed once. -/
def Once : Op → Prop
  | .record _ rs | .run _ rs => (rs.map (·.1)).Nodup
  | .destroy _ ks => ks.Nodup
  | _ => True

/-- The user changes no program and destroys no graph. -/
def Plain : Op → Prop
  | .reset .. | .destroy .. => False
  | _ => True

/-- All the passes are new. -/
def New (s : St) : Prop :=
  s.queue = [] ∧ ∀ g k, ∃ kind images buffers programs creator n,
    s.passes g k = PassSt.new kind images buffers programs creator n

end Verif.Flight
