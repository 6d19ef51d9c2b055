import Verif.Model.Lifetime
/-! Specification: which GPU objects belong to whom. -/
namespace Verif.Life

/-- The objects of one index of a pass; its command buffer comes from `pool`. -/
def PassData.objects (pool : Option Nat) (p : PassData) : List (Nat × Kind) :=
  [(p.semaphore, .semaphore), (p.fence, .fence)] ++ match pool with
    | some q => p.commandBuffer.toList.map fun h => (h, .commandBuffer q)
    | none => []

/-- The objects of a runnable graph, apart from the images and views it uses. -/
def Graph.objects (g : Graph) : List (Nat × Kind) :=
  g.queryPool.toList.map (fun h => (h, .queryPool)) ++ g.commandPool.toList.map (fun h => (h, .commandPool))
    ++ g.fence.toList.map (fun h => (h, .fence)) ++ g.semaphore.toList.map (fun h => (h, .semaphore))
    ++ (match g.commandPool with
        | some q => g.commandBuffer.toList.map fun h => (h, .commandBuffer q)
        | none => [])
    ++ g.passes.flatMap fun p => p.flatMap (PassData.objects g.commandPool)

/-- The images, memories and views registered in the handler. -/
def St.registered (s : St) : List (Nat × Kind) :=
  s.images.flatMap (fun e => e.2.1.toList.map (fun h => (h, .image)) ++ e.2.2.toList.map (fun h => (h, .memory)))
    ++ s.views.flatMap (fun e => e.2.toList.map fun h => (h, .view))

/-- The views of the frame graph show images of the same frame graph. -/
def Shape.Closed (sh : Shape) : Prop := ∀ v ∈ sh.views, v.2 ∈ sh.images

def Op.Closed : Op → Prop
  | .create _ sh => sh.Closed
  | _ => True

/-- The world before anything was created, whatever number of calls the driver got. -/
def World.start (calls : Nat) : World := { st := { drv := { calls := calls } } }

/-- Worlds users get to: any history, the driver refusing whatever it wants. -/
def Reachable (w : World) : Prop := ∃ refuse ops n, w = run refuse (World.start n) ops

/-- No graph has created this image. -/
def Unowned (w : World) (i : Nat) : Prop := ∀ e ∈ w.graphs, i ∉ e.2.images

end Verif.Life
