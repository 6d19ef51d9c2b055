import Verif.Props.Multi
import Verif.Props.FlowDeclared
/-
C94 in terms of the methods that declared the attachments.
-/
namespace Verif.Multi
open Verif.Rec Verif.Run Verif.Att Verif.Gpu

variable {sepDS : Bool} {fmt : Nat → Nat} {V : View → Prop}

/-- C94 (partial, as `chained_graphs_valid_partial`). In any run of any of the chained graphs, whenever the commands of a pass
start, an image the pass declared with a method that promises a layout is in that layout, wherever the graphs run before left
it. -/
theorem chained_graphs_declared_partial {W0 : World} (hW0 : Fresh W0) {newer older : List Ran} {a : Ran} {W : World}
    (hs : Session sepDS W0 (newer ++ a :: older) W) (hf : ∀ x ∈ newer ++ a :: older, Fine sepDS fmt V x)
    (hc : Chained (newer ++ a :: older)) (g0 : Layouts) (q : RunPass) (r : Rec)
    (he : Enters ⟨sepDS, a.job.enabled⟩ (a.before.st a.job.graph) a.job.index a.job.passes
      (frameStart sepDS (a.before.finals a.job.deps) a.job.passes (a.before.initialised a.job.graph) (a.before.log a.job.graph)) q r)
    (m : ImageAdder) (ho : m.Ordinary) (p b : Nat) (vs : List View) (clear blend : Nat)
    (ha : m.attach p b vs clear blend ∈ q.images) (l : Nat) (hl : m.wants = some l) (v : View)
    (hv : vs = [v] ∨ vs.length ≠ 1 ∧ vs[a.job.index q.id]? = some v) :
    StreamValid g0 (stream (newer ++ a :: older)) ∧ InLayout fmt (execAll g0 (stream older ++ r.cmds)) v l := by
  obtain ⟨h1, h2⟩ := chained_graphs_valid_partial hW0 hs hf hc g0
  have hm := adders_prepared m ho p b vs clear blend sepDS
  refine ⟨h1, ?_⟩
  rw [← hm.2 l hl]
  exact h2 newer a older rfl q r he _ ha (by rw [hm.1, hl]; rfl) v (declared_view m p b vs clear blend _ hv)

/-- Its hypotheses on the attachments are met by the graphs of `example_chain`. -/
theorem example_chain_declared : ImageAdder.inOutStorage.attach 2 0 [xView] ∈ sUpdate.images
    ∧ ImageAdder.sampled.attach 1 0 [xView] ∈ hRead.images ∧ ImageAdder.inOutStorage.wants = some Layout.general
    ∧ ImageAdder.sampled.wants = some Layout.shaderReadOnly :=
  ⟨List.mem_singleton.2 rfl, List.mem_singleton.2 rfl, rfl, rfl⟩

end Verif.Multi
