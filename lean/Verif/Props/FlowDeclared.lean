import Verif.Props.Flow
import Verif.Props.Declared
/-
C93 in terms of the methods that declared the attachments.
-/
namespace Verif.Run
open Verif.Rec Verif.Att Verif.Gpu

variable {sepDS : Bool} {fmt : Nat → Nat} {V : View → Prop} {g0 : Layouts} {G : GraphSt}

/-- The view an attachment gives for an index, from the list it was declared with. -/
theorem declared_view (m : ImageAdder) (p b : Nat) (vs : List View) (clear blend index : Nat) {v : View}
    (hv : vs = [v] ∨ vs.length ≠ 1 ∧ vs[index]? = some v) : (m.attach p b vs clear blend).img.view index = some v := by
  unfold ImgAttach.view
  rw [(image_fields m p b vs clear blend).2.2.1]
  rcases hv with rfl | ⟨h1, h2⟩
  · rfl
  · rw [if_neg h1, h2]

/-- C93 (partial, as `dependency_data_flows_partial`). Pass `w` declared an image with one of the methods that promise a layout
(sampled, storage, transfer, implicit), and pass `q`, which depends on `w`, declared one too: the body of `w` runs first, and
when the one of `q` runs, its image is in the layout its method promises, and every byte of the image `w` declared is as `w`
left it, unless something in between writes it or draws to it without loading and storing it. -/
theorem dependency_data_flows_declared_partial {decl : List Sort.Pass} (hwf : Sort.WellFormed decl) (hroot : Sort.HasRoot decl)
    {make : Sort.Pass → RunPass} {passes : List RunPass}
    (hc : compiled make decl = .ok passes) (hmk : ∀ x ∈ decl, (make x).id = x.id)
    {cached : Nat → Nat → Option RPass.PassObj} {en : Nat → Bool} {index : Nat → Nat} {deps : List Ctx}
    {ini : Nat → Nat → Bool} {log : List Event}
    (hO : Ordinary sepDS fmt V G en index passes (frameStart sepDS deps passes ini log) cached)
    (hd : Defined (startCtx deps)) (hH : Honest fmt V g0 (startCtx deps) G)
    (hwell : Lib.EntersWell sepDS G en index passes (frameStart sepDS deps passes ini log) cached)
    {G' : GraphSt} {f : Frame} (e : record ⟨sepDS, en⟩ G deps index passes ini log = some (G', f))
    {w q : Sort.Pass} (hq : q ∈ decl) (hdep : DependsOn decl q w) (henw : en w.id = true) (henq : en q.id = true)
    (mw mq : ImageAdder) (how : mw.Ordinary) (hoq : mq.Ordinary) (pw bw pq bq : Nat) (vw vq : List View) (cw cq dw dq : Nat)
    (haw : mw.attach pw bw vw cw dw ∈ (make w).images) (haq : mq.attach pq bq vq cq dq ∈ (make q).images)
    (hww : mw.wants.isSome = true) (l : Nat) (hwq : mq.wants = some l) (v u : View)
    (hv : vw = [v] ∨ vw.length ≠ 1 ∧ vw[index w.id]? = some v) (hu : vq = [u] ∨ vq.length ≠ 1 ∧ vq[index q.id]? = some u) :
    ∃ i j rw rq cs, i < j
      ∧ BodyGets ⟨sepDS, en⟩ G deps index passes ini log i (make w) rw
      ∧ BodyGets ⟨sepDS, en⟩ G deps index passes ini log j (make q) rq
      ∧ rq.cmds = ((make w).body (index w.id) rw).cmds ++ cs
      ∧ InLayout fmt (execAll g0 rq.cmds) u l
      ∧ ∀ c, c.InView v → ¬ MayLose en ((passes.take j).drop (i + 1)) c →
        ∀ dev M, (∀ x ∈ cs, ¬ Writes dev x c) →
          (steps dev M rq.cmds).image c = (steps dev M ((make w).body (index w.id) rw).cmds).image c := by
  obtain ⟨i, j, rw, rq, cs, ds, hij, -, -, h1, h2, ecs, -, hr, hk⟩ :=
    dependency_data_flows_partial hwf hroot hc hmk hO hd hH hwell e hq hdep henw henq
  refine ⟨i, j, rw, rq, cs, hij, h1, h2, ecs, ?_, ?_⟩
  · have hm := adders_prepared mq hoq pq bq vq cq dq sepDS
    rw [← hm.2 l hwq]
    exact hr _ haq (by rw [hm.1, hwq]; rfl) u (declared_view mq pq bq vq cq dq _ hu)
  · intro c hcv
    exact hk c (Or.inl ⟨_, haw, by rw [(adders_prepared mw how pw bw vw cw dw sepDS).1]; exact hww, v,
      declared_view mw pw bw vw cw dw _ hv, hcv⟩)

/-- Its hypotheses on the attachments are met: the copy declared its destination as transfer output, the last pass samples it. -/
theorem example_flow_declared : ImageAdder.transferOutput.attach 1 0 [Lib.eDst] ∈ (fMake fCopy).images
    ∧ (∃ p b vs, ImageAdder.sampled.attach p b vs ∈ (fMake fSample).images ∧ vs.length = 1)
    ∧ DependsOn fDecl fSample fCopy ∧ compiled fMake fDecl = .ok Lib.ePasses :=
  ⟨by simp [fMake, fCopy, Lib.eCopy, Lib.eCopy0],
    ⟨_, _, _, List.mem_singleton.2 rfl, rfl⟩, .through (m := fMips) (by simp [fDecl]) (List.mem_singleton.2 rfl) rfl
      (.direct (by simp [fDecl]) (List.mem_singleton.2 rfl) rfl), fCompiled⟩

end Verif.Run
