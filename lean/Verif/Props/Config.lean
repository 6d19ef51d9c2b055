import Verif.Spec.Config
import Verif.Props.Context
/-
C90: passes use what was configured.
-/
namespace Verif.Cfg
open Verif.DrawCmd (Cmd Indirect)

/-! ### The last call decides -/

/-- What is settled is unique. -/
theorem settled_unique {κ α : Type} {said : κ → Option α} {d : α} {calls : List κ} {v w : α}
    (hv : Settled said d calls v) (hw : Settled said d calls w) : v = w := by
  induction calls with
  | nil =>
    rcases hv with ⟨b, c, a, e, _⟩ | ⟨_, rfl⟩
    · exact absurd e (by simp)
    rcases hw with ⟨b, c, a, e, _⟩ | ⟨_, rfl⟩
    · exact absurd e (by simp)
    rfl
  | cons k ks ih =>
    -- a settled value is settled by the tail, or by the head when the tail says nothing
    have key : ∀ {x : α}, Settled said d (k :: ks) x →
        ((∃ c ∈ ks, said c ≠ none) ∧ Settled said d ks x) ∨
        ((∀ c ∈ ks, said c = none) ∧ (said k = some x ∨ (said k = none ∧ x = d))) := by
      intro x hx
      rcases hx with ⟨b, c, a, e, hc, ha⟩ | ⟨hn, rfl⟩
      · cases b with
        | nil =>
          simp only [List.nil_append, List.cons.injEq] at e
          obtain ⟨rfl, rfl⟩ := e
          exact Or.inr ⟨ha, Or.inl hc⟩
        | cons b0 b =>
          simp only [List.cons_append, List.cons.injEq] at e
          obtain ⟨rfl, rfl⟩ := e
          exact Or.inl ⟨⟨c, by simp, by simp [hc]⟩, Or.inl ⟨b, c, a, rfl, hc, ha⟩⟩
      · exact Or.inr ⟨fun c hc => hn c (List.mem_cons_of_mem _ hc), Or.inr ⟨hn k (by simp), rfl⟩⟩
    rcases key hv with ⟨⟨c, hc, hs⟩, h1⟩ | ⟨h0, h1⟩ <;> rcases key hw with ⟨⟨c', hc', hs'⟩, h2⟩ | ⟨h0', h2⟩
    · exact ih h1 h2
    · exact absurd (h0' c hc) hs
    · exact absurd (h0 c' hc') hs'
    · rcases h1 with h1 | ⟨h1, rfl⟩ <;> rcases h2 with h2 | ⟨h2, rfl⟩
      · exact Option.some.inj (h1.symm.trans h2)
      · rw [h1] at h2; cases h2
      · rw [h1] at h2; cases h2
      · rfl

/-- If each call gives the thing what it says, or leaves it, then folding the calls settles it. -/
theorem settled_fold {κ σ α : Type} (apply : κ → σ → σ) (get : σ → α) (said : κ → Option α) (s : σ) (calls : List κ)
    (h : ∀ k s, get (apply k s) = (said k).getD (get s)) :
    Settled said (get s) calls (get (calls.foldl (fun s k => apply k s) s)) := by
  induction calls generalizing s with
  | nil => exact Or.inr ⟨by simp, rfl⟩
  | cons k ks ih =>
    rw [List.foldl_cons]
    rcases ih (apply k s) with ⟨b, c, a, e, hc, ha⟩ | ⟨hn, hv⟩
    · exact Or.inl ⟨k :: b, c, a, by rw [e]; rfl, hc, ha⟩
    · rw [hv, h]
      cases hk : said k with
      | none => exact Or.inr ⟨by simpa [hk] using hn, rfl⟩
      | some v => exact Or.inl ⟨[], k, ks, rfl, hk, hn⟩

/-! ### Programs -/

/-- The program a pipeline is created with is the configured one of its index. -/
theorem getProgram_new (b : Base) (images buffers : List Att.Attachment) (m i : Nat) :
    ((b.holder images buffers m).getProgram i).map (·.1) = programOf b.saidPrograms b.saidCreator i := by
  unfold Base.holder Base.saidPrograms Base.saidCreator
  generalize b.programs.getD [] = ps
  generalize b.creator.getD none = cr
  cases cr with
  | none =>
    simp only [Pipe.St.getProgram, Pipe.St.cacheProgram, Pipe.St.new, Option.bind_some, programOf]
    by_cases h : ps.length = 1
    · rw [if_pos h, if_pos h]
      cases ps <;> simp
    · rw [if_neg h, if_neg h]
      cases ps[i]? <;> rfl
  | some nc =>
    obtain ⟨n, create⟩ := nc
    have hl : (ps.take n ++ List.replicate (n - ps.length) 0).length = n := by
      simp only [List.length_append, List.length_take, List.length_replicate]; omega
    simp only [Pipe.St.getProgram, Pipe.St.cacheProgram, Pipe.St.new, programOf]
    by_cases hi : i < n
    · rw [if_pos hi, if_pos hi, Option.bind_some]
      simp only [List.length_set, hl]
      by_cases h1 : n = 1
      · have : i = 0 := by omega
        subst this
        rw [if_pos h1, List.getElem?_set_self (by rw [hl]; exact hi)]
        rfl
      · rw [if_neg h1, List.getElem?_set_self (by rw [hl]; exact hi)]
        rfl
    · rw [if_neg hi, if_neg hi]; rfl

/-! ### Pipeline configurations -/

/-- **C90**: a pipeline configuration after any calls: the program of each index and what the pipeline layout is created
from (the pass's own set layout first). -/
theorem base_configured (calls : List BaseCall) :
    ∃ ps cr ls rs,
      Settled BaseCall.saysPrograms [] calls ps ∧ Settled BaseCall.saysCreator none calls cr ∧
      Settled BaseCall.saysLayouts [] calls ls ∧ Settled BaseCall.saysPushConstants [] calls rs ∧
      (∀ images buffers m i, (((baseConfig calls).holder images buffers m).getProgram i).map (·.1) = programOf ps cr i) ∧
      ∀ own, (baseConfig calls).pipelineLayout own = (own :: ls, rs) := by
  refine ⟨_, _, _, _,
    settled_fold BaseCall.apply Base.saidPrograms _ {} calls ?_,
    settled_fold BaseCall.apply Base.saidCreator _ {} calls ?_,
    settled_fold BaseCall.apply Base.saidLayouts _ {} calls ?_,
    settled_fold BaseCall.apply Base.saidPushConstants _ {} calls ?_,
    fun images buffers m i => getProgram_new _ images buffers m i, fun own => rfl⟩ <;>
  · intro k s; cases k <;> rfl

/-! ### Quads -/

/-- **C90**, quads: programs, set layouts and push constants. -/
theorem quad_pipeline_configured (calls : List QuadCall) :
    ∃ ps cr ls rs,
      Settled QuadCall.saysPrograms [] calls ps ∧ Settled QuadCall.saysCreator none calls cr ∧
      Settled QuadCall.saysLayouts [] calls ls ∧ Settled QuadCall.saysPushConstants [] calls rs ∧
      (∀ images buffers m i,
        (((quadConfig calls).base.holder images buffers m).getProgram i).map (·.1) = programOf ps cr i) ∧
      ∀ own, (quadConfig calls).base.pipelineLayout own = (own :: ls, rs) := by
  refine ⟨_, _, _, _,
    settled_fold QuadCall.apply (fun c => c.base.saidPrograms) _ {} calls ?_,
    settled_fold QuadCall.apply (fun c => c.base.saidCreator) _ {} calls ?_,
    settled_fold QuadCall.apply (fun c => c.base.saidLayouts) _ {} calls ?_,
    settled_fold QuadCall.apply (fun c => c.base.saidPushConstants) _ {} calls ?_,
    fun images buffers m i => getProgram_new _ images buffers m i, fun own => rfl⟩ <;>
  · intro k s; cases k <;> rfl

/-- **C90**, quads: viewport, scissor, depth and stencil, the size asked of the render pass; a quad is never culled. -/
theorem quad_states_configured (calls : List QuadCall) :
    ∃ pos ds size,
      Settled QuadCall.saysPosition (0, 0) calls pos ∧ Settled QuadCall.saysDepthStencil 0 calls ds ∧
      Settled QuadCall.saysSize (0, 0) calls size ∧
      (quadConfig calls).renderSize = size ∧
      ∀ w h blend,
        (quadConfig calls).data.pipeInfo (w, h) blend =
          ⟨(pos.1, pos.2, w, h), (pos.1, pos.2, w, h), .triangleStrip, 0, ds, blend⟩ := by
  refine ⟨_, _, _,
    settled_fold QuadCall.apply (fun c => c.data.position) _ {} calls ?_,
    settled_fold QuadCall.apply (fun c => c.data.depthStencil) _ {} calls ?_,
    settled_fold QuadCall.apply (fun c => c.renderSize) _ {} calls ?_, rfl, fun w h blend => rfl⟩ <;>
  · intro k s; cases k <;> rfl

/-- **C90**, quads: the index recorded and whether the pass is enabled, read at each recording. -/
theorem quad_control_configured (calls : List QuadCall) :
    ∃ idx en cb,
      Settled QuadCall.saysPassIndex none calls idx ∧ Settled QuadCall.saysEnabled none calls en ∧
      Settled QuadCall.saysIsEnabled none calls cb ∧
      ∀ t, ((quadConfig calls).data.draw t).index = (match idx with | some p => p t | none => 0) ∧
        ((quadConfig calls).data.draw t).isOn = on cb en t := by
  refine ⟨_, _, _,
    settled_fold QuadCall.apply (fun c => c.data.passIndex) _ {} calls ?_,
    settled_fold QuadCall.apply (fun c => c.data.enabled) _ {} calls ?_,
    settled_fold QuadCall.apply (fun c => c.data.isEnabled) _ {} calls ?_, fun t => ⟨?_, ?_⟩⟩
  · intro k s; cases k <;> rfl
  · intro k s; cases k <;> rfl
  · intro k s; cases k <;> rfl
  · show (((quadConfig calls).data.passIndex).map (· t)).getD 0 = _
    change (((quadConfig calls).data.passIndex).map (· t)).getD 0 =
      (match (quadConfig calls).data.passIndex with | some p => p t | none => 0)
    cases (quadConfig calls).data.passIndex <;> rfl
  · change (match ((quadConfig calls).data.isEnabled).map (· t) with
      | some b => b | none => (((quadConfig calls).data.enabled).map (· t)).getD true) =
      on (quadConfig calls).data.isEnabled (quadConfig calls).data.enabled t
    cases (quadConfig calls).data.isEnabled <;> cases (quadConfig calls).data.enabled <;> rfl

/-- **C90**, quads: the commands recorded. The user's callback, the vertices, one draw of a triangle with the configured
instances or from the configured indirect buffer, the end of the render pass, the user's other callback. -/
theorem quad_commands_configured (calls : List QuadCall) :
    ∃ rec fin n ib,
      Settled QuadCall.saysRecordInto (fun _ => []) calls rec ∧ Settled QuadCall.saysEnd (fun _ => []) calls fin ∧
      Settled QuadCall.saysInstances 1 calls n ∧ Settled QuadCall.saysIndirect {} calls ib ∧
      ∀ t vertex i vb db, bufferOf vertex i = some vb → bufferOf ib.buffers i = some db → vb ≠ 0 →
        (quadConfig calls).data.commands t vertex i =
          some ((rec i).map some ++ [some (Cmd.bindVertex vb 0)]
            ++ [some (if db = 0 then Cmd.draw 3 n 0 0 else Cmd.drawIndirect db ib.offset 1 ib.stride)]
            ++ [none] ++ (fin i).map some) := by
  refine ⟨_, _, _, _,
    settled_fold QuadCall.apply (fun c => c.data.recordInto) _ {} calls ?_,
    settled_fold QuadCall.apply (fun c => c.data.finish) _ {} calls ?_,
    settled_fold QuadCall.apply (fun c => c.data.instances) _ {} calls ?_,
    settled_fold QuadCall.apply (fun c => c.data.indirect) _ {} calls ?_, ?_⟩
  · intro k s; cases k <;> rfl
  · intro k s; cases k <;> rfl
  · intro k s; cases k <;> rfl
  · intro k s; cases k <;> rfl
  intro t vertex i vb db hv hd hn
  change bufferOf (quadConfig calls).data.indirect.buffers i = some db at hd
  show _ = some (((quadConfig calls).data.recordInto i).map some ++ [some (Cmd.bindVertex vb 0)]
            ++ [some (if db = 0 then Cmd.draw 3 (quadConfig calls).data.instances 0 0
              else Cmd.drawIndirect db (quadConfig calls).data.indirect.offset 1 (quadConfig calls).data.indirect.stride)]
            ++ [none] ++ ((quadConfig calls).data.finish i).map some)
  generalize (quadConfig calls).data = d at hd ⊢
  have hv' : DrawCmd.bufferAt vertex i = some vb := hv
  have hd' : DrawCmd.bufferAt d.indirect.buffers i = some db := hd
  simp only [QuadData.commands, DrawCmd.recordQuad, QuadData.draw, hv', hd', Option.bind_some, Option.map_some, ne_eq,
    hn, not_false_eq_true, if_true]
  by_cases h0 : db = 0 <;> simp [h0]

/-! ### Meshes -/

/-- **C90**, meshes: programs, set layouts and push constants. -/
theorem mesh_pipeline_configured (calls : List MeshCall) :
    ∃ ps cr ls rs,
      Settled MeshCall.saysPrograms [] calls ps ∧ Settled MeshCall.saysCreator none calls cr ∧
      Settled MeshCall.saysLayouts [] calls ls ∧ Settled MeshCall.saysPushConstants [] calls rs ∧
      (∀ images buffers m i,
        (((meshConfig calls).base.holder images buffers m).getProgram i).map (·.1) = programOf ps cr i) ∧
      ∀ own, (meshConfig calls).base.pipelineLayout own = (own :: ls, rs) := by
  refine ⟨_, _, _, _,
    settled_fold MeshCall.apply (fun c => c.base.saidPrograms) _ {} calls ?_,
    settled_fold MeshCall.apply (fun c => c.base.saidCreator) _ {} calls ?_,
    settled_fold MeshCall.apply (fun c => c.base.saidLayouts) _ {} calls ?_,
    settled_fold MeshCall.apply (fun c => c.base.saidPushConstants) _ {} calls ?_,
    fun images buffers m i => getProgram_new _ images buffers m i, fun own => rfl⟩ <;>
  · intro k s; cases k <;> rfl

/-- **C90**, meshes: viewport, scissor, depth and stencil, the size asked of the render pass, and the cull mode, which
the configured callback answered when the pass was constructed (at the moment `t₀`). -/
theorem mesh_states_configured (calls : List MeshCall) (t₀ : Nat) :
    ∃ pos ds size cull,
      Settled MeshCall.saysPosition (0, 0) calls pos ∧ Settled MeshCall.saysDepthStencil 0 calls ds ∧
      Settled MeshCall.saysSize (0, 0) calls size ∧ Settled MeshCall.saysCullMode (fun _ => 0) calls cull ∧
      (meshConfig calls).renderSize = size ∧
      ∀ w h blend,
        ((meshConfig calls).data t₀).pipeInfo (w, h) blend =
          ⟨(pos.1, pos.2, w, h), (pos.1, pos.2, w, h), .triangleList, cull t₀, ds, blend⟩ := by
  refine ⟨_, _, _, _,
    settled_fold MeshCall.apply (fun c => (c.data t₀).position) _ {} calls ?_,
    settled_fold MeshCall.apply (fun c => (c.data t₀).depthStencil) _ {} calls ?_,
    settled_fold MeshCall.apply (fun c => c.renderSize) _ {} calls ?_,
    settled_fold MeshCall.apply (fun c => match c.getCullMode with | some f => f | none => fun _ => 0) _ {} calls ?_,
    rfl, fun w h blend => rfl⟩ <;>
  · intro k s; cases k <;> rfl

/-- **C90**, meshes: the index recorded and whether the pass is enabled, asked at each recording. -/
theorem mesh_control_configured (calls : List MeshCall) (t₀ : Nat) :
    ∃ idx en,
      Settled MeshCall.saysPassIndex (fun _ => 0) calls idx ∧ Settled MeshCall.saysIsEnabled (fun _ => true) calls en ∧
      ∀ t, ((meshConfig calls).data t₀).index t = idx t ∧ ((meshConfig calls).data t₀).isOn t = en t := by
  refine ⟨_, _,
    settled_fold MeshCall.apply (fun c => (c.data t₀).getPassIndex) _ {} calls ?_,
    settled_fold MeshCall.apply (fun c => (c.data t₀).isEnabled) _ {} calls ?_, fun t => ⟨rfl, rfl⟩⟩ <;>
  · intro k s; cases k <;> rfl

/-- **C90**, meshes: the commands recorded, the counts and the index type asked when recording. -/
theorem mesh_commands_configured (calls : List MeshCall) (t₀ : Nat) :
    ∃ rec fin vtx idx ind prims verts type,
      Settled MeshCall.saysRecordInto (fun _ => []) calls rec ∧ Settled MeshCall.saysEnd (fun _ => []) calls fin ∧
      Settled MeshCall.saysVertex [0] calls vtx ∧ Settled MeshCall.saysIndices [0] calls idx ∧
      Settled MeshCall.saysIndirect {} calls ind ∧ Settled MeshCall.saysPrimitiveCount (fun _ => 1) calls prims ∧
      Settled MeshCall.saysVertexCount (fun _ => 1) calls verts ∧ Settled MeshCall.saysIndexType (fun _ => 1) calls type ∧
      ∀ t i vb db ib, bufferOf vtx i = some vb → bufferOf ind.buffers i = some db → bufferOf idx i = some ib →
        ((meshConfig calls).data t₀).commands t i =
          some ((rec i).map some ++ (if vb = 0 then [] else [some (Cmd.bindVertex vb 0)])
            ++ (meshDraw db ib ind.offset ind.stride (type t) (prims t) (verts t)).map some
            ++ [none] ++ (fin i).map some) := by
  refine ⟨_, _, _, _, _, _, _, _,
    settled_fold MeshCall.apply (fun c => (c.data t₀).recordInto) _ {} calls ?_,
    settled_fold MeshCall.apply (fun c => (c.data t₀).finish) _ {} calls ?_,
    settled_fold MeshCall.apply (fun c => (c.data t₀).vertex) _ {} calls ?_,
    settled_fold MeshCall.apply (fun c => (c.data t₀).indices) _ {} calls ?_,
    settled_fold MeshCall.apply (fun c => (c.data t₀).indirect) _ {} calls ?_,
    settled_fold MeshCall.apply (fun c => (c.data t₀).getPrimitiveCount) _ {} calls ?_,
    settled_fold MeshCall.apply (fun c => (c.data t₀).getVertexCount) _ {} calls ?_,
    settled_fold MeshCall.apply (fun c => (c.data t₀).getIndexType) _ {} calls ?_, ?_⟩
  iterate 8
    · intro k s; cases k <;> rfl
  intro t i vb db ib hv hd hi
  change bufferOf ((meshConfig calls).data t₀).vertex i = some vb at hv
  change bufferOf ((meshConfig calls).data t₀).indirect.buffers i = some db at hd
  change bufferOf ((meshConfig calls).data t₀).indices i = some ib at hi
  show _ = some ((((meshConfig calls).data t₀).recordInto i).map some
    ++ (if vb = 0 then [] else [some (Cmd.bindVertex vb 0)])
    ++ (meshDraw db ib ((meshConfig calls).data t₀).indirect.offset ((meshConfig calls).data t₀).indirect.stride
      (((meshConfig calls).data t₀).getIndexType t) (((meshConfig calls).data t₀).getPrimitiveCount t)
      (((meshConfig calls).data t₀).getVertexCount t)).map some
    ++ [none] ++ (((meshConfig calls).data t₀).finish i).map some)
  generalize (meshConfig calls).data t₀ = d at hv hd hi ⊢
  have hv' : DrawCmd.bufferAt d.vertex i = some vb := hv
  have hd' : DrawCmd.bufferAt d.indirect.buffers i = some db := hd
  have hi' : DrawCmd.bufferAt d.indices i = some ib := hi
  simp only [MeshData.commands, DrawCmd.recordMesh, MeshData.draw, hv', hd', hi', Option.bind_some, Option.map_some,
    meshDraw]
  by_cases h0 : vb = 0 <;> by_cases h1 : db = 0 <;> by_cases h2 : ib = 0 <;> simp [h0, h1, h2]

/-! ### Compute passes -/

/-- **C90**, compute passes: programs, set layouts and push constants. -/
theorem compute_pipeline_configured (calls : List ComputeCall) :
    ∃ ps cr ls rs,
      Settled ComputeCall.saysPrograms [] calls ps ∧ Settled ComputeCall.saysCreator none calls cr ∧
      Settled ComputeCall.saysLayouts [] calls ls ∧ Settled ComputeCall.saysPushConstants [] calls rs ∧
      (∀ images buffers m i,
        (((computeConfig calls).base.holder images buffers m).getProgram i).map (·.1) = programOf ps cr i) ∧
      ∀ own, (computeConfig calls).base.pipelineLayout own = (own :: ls, rs) := by
  refine ⟨_, _, _, _,
    settled_fold ComputeCall.apply (fun c => c.base.saidPrograms) _ {} calls ?_,
    settled_fold ComputeCall.apply (fun c => c.base.saidCreator) _ {} calls ?_,
    settled_fold ComputeCall.apply (fun c => c.base.saidLayouts) _ {} calls ?_,
    settled_fold ComputeCall.apply (fun c => c.base.saidPushConstants) _ {} calls ?_,
    fun images buffers m i => getProgram_new _ images buffers m i, fun own => rfl⟩ <;>
  · intro k s; cases k <;> rfl

/-- **C90**, compute passes: the index recorded, whether the pass is enabled, the callback called when the pass is
initialised. -/
theorem compute_control_configured (calls : List ComputeCall) :
    ∃ idx en cb ini,
      Settled ComputeCall.saysPassIndex (fun _ => some 0) calls idx ∧ Settled ComputeCall.saysEnabled none calls en ∧
      Settled ComputeCall.saysIsEnabled none calls cb ∧ Settled ComputeCall.saysInitialise none calls ini ∧
      (∀ t, (computeConfig calls).index t = idx t ∧ (computeConfig calls).isOn t = on cb en t) ∧
      ∀ i, (computeConfig calls).initialiseCalls i = (match ini with | some f => [(f, i)] | none => []) := by
  refine ⟨_, _, _, _,
    settled_fold ComputeCall.apply (fun c => c.index) _ {} calls ?_,
    settled_fold ComputeCall.apply (fun c => c.enabled.getD none) _ {} calls ?_,
    settled_fold ComputeCall.apply (fun c => c.isEnabled) _ {} calls ?_,
    settled_fold ComputeCall.apply (fun c => c.initialise) _ {} calls ?_, fun t => ⟨rfl, ?_⟩, fun i => rfl⟩
  · intro k s
    cases k
    case passIndex p => cases p <;> rfl
    all_goals rfl
  · intro k s; cases k <;> rfl
  · intro k s; cases k <;> rfl
  · intro k s; cases k <;> rfl
  · change (computeConfig calls).isOn t = on (computeConfig calls).isEnabled ((computeConfig calls).enabled.getD none) t
    unfold ComputeConfig.isOn
    cases (computeConfig calls).isEnabled with
    | some f => rfl
    | none =>
      cases (computeConfig calls).enabled with
      | none => rfl
      | some p => cases p <;> rfl

/-- **C90** (partial), compute passes: the commands recorded. Missing: callbacks for the Y or Z group counts, which are
not called (C40). -/
theorem compute_commands_configured_partial (calls : List ComputeCall)
    (hy : ∀ c ∈ calls, c.saysGetY = none) (hz : ∀ c ∈ calls, c.saysGetZ = none) :
    ∃ rec fin x y z gx ib,
      Settled ComputeCall.saysRecordInto (fun _ => []) calls rec ∧ Settled ComputeCall.saysEnd (fun _ => []) calls fin ∧
      Settled ComputeCall.saysCountX 1 calls x ∧ Settled ComputeCall.saysCountY 1 calls y ∧
      Settled ComputeCall.saysCountZ 1 calls z ∧ Settled ComputeCall.saysGetX none calls gx ∧
      Settled ComputeCall.saysIndirect {} calls ib ∧
      ∀ t i db, bufferOf ib.buffers i = some db →
        (computeConfig calls).commands t i =
          some ((rec i).map .cmd
            ++ [.dispatch (if db = 0 then .direct (match gx with | some f => f t | none => x) y z
                else .indirect db ib.offset)]
            ++ (fin i).map .cmd) := by
  have none_of : ∀ {g : ComputeConfig → Option (Read Nat)} {said : ComputeCall → Option (Option (Read Nat))},
      Settled said none calls (g (computeConfig calls)) → (∀ c ∈ calls, said c = none) → g (computeConfig calls) = none := by
    intro g said h hn
    rcases h with ⟨b, c, a, e, hc, _⟩ | ⟨_, h⟩
    · rw [hn c (by rw [e]; simp)] at hc; cases hc
    · exact h
  have ey : (computeConfig calls).getY = none :=
    none_of (settled_fold ComputeCall.apply (fun c => c.getY) ComputeCall.saysGetY {} calls
      (by intro k s; cases k <;> rfl)) hy
  have ez : (computeConfig calls).getZ = none :=
    none_of (settled_fold ComputeCall.apply (fun c => c.getZ) ComputeCall.saysGetZ {} calls
      (by intro k s; cases k <;> rfl)) hz
  refine ⟨_, _, _, _, _, _, _,
    settled_fold ComputeCall.apply (fun c => c.before) _ {} calls ?_,
    settled_fold ComputeCall.apply (fun c => c.after) _ {} calls ?_,
    settled_fold ComputeCall.apply (fun c => Ctx.count c.countX) _ {} calls ?_,
    settled_fold ComputeCall.apply (fun c => Ctx.count c.countY) _ {} calls ?_,
    settled_fold ComputeCall.apply (fun c => Ctx.count c.countZ) _ {} calls ?_,
    settled_fold ComputeCall.apply (fun c => c.getX) _ {} calls ?_,
    settled_fold ComputeCall.apply (fun c => c.indirectBuffer) _ {} calls ?_, ?_⟩
  iterate 7
    · intro k s; cases k <;> rfl
  intro t i db hd
  change bufferOf (computeConfig calls).indirectBuffer.buffers i = some db at hd
  show _ = some (((computeConfig calls).before i).map Compute.cmd
    ++ [.dispatch (if db = 0 then .direct (match (computeConfig calls).getX with
          | some f => f t | none => Ctx.count (computeConfig calls).countX)
          (Ctx.count (computeConfig calls).countY) (Ctx.count (computeConfig calls).countZ)
        else .indirect db (computeConfig calls).indirectBuffer.offset)]
    ++ ((computeConfig calls).after i).map .cmd)
  generalize computeConfig calls = c at ey ez hd ⊢
  have hd' : DrawCmd.bufferAt c.indirectBuffer.buffers i = some db := hd
  simp only [ComputeConfig.commands, ComputeConfig.at, hd', Option.map_some, Ctx.dispatch, ey, ez, Option.map_none,
    Option.getD_some]
  by_cases h0 : db = 0
  · cases c.getX <;> simp [h0]
  · simp [h0]

/-! ### The quad builder -/

/-- What the builder was told, as an `rq::Config` would be: the quad's calls, then the pipeline's configuration as a
whole. -/
def BuilderCall.asQuad (calls : List BuilderCall) : List QuadCall :=
  calls.filterMap BuilderCall.saysQuad ++ [.baseConfig (baseConfig (calls.filterMap BuilderCall.saysBase))]

theorem builder_eq (calls : List BuilderCall) (b : Builder) :
    (builder calls b).base = (calls.filterMap BuilderCall.saysBase).foldl (fun b c => c.apply b) b.base ∧
    (builder calls b).config = (calls.filterMap BuilderCall.saysQuad).foldl (fun b c => c.apply b) b.config := by
  induction calls generalizing b with
  | nil => exact ⟨rfl, rfl⟩
  | cons k ks ih =>
    have := ih (k.apply b)
    cases k <;> exact this

/-- **C90**, quad builder: the first pass built is the one an `rq::Config` given the same calls would build (so the
theorems above say what it uses). -/
theorem builder_first_build (calls : List BuilderCall) :
    ((builder calls).build).1 = quadConfig (BuilderCall.asQuad calls) := by
  obtain ⟨h1, h2⟩ := builder_eq calls {}
  show ({ (builder calls {}).config with base := (builder calls {}).base } : QuadConfig) = _
  rw [h1, h2]
  unfold quadConfig BuilderCall.asQuad
  rw [List.foldl_append]
  rfl

/-- **C90** fails for a builder used twice: whatever the first pass was told of programs, the second pass built from the
same builder has none, and creating its pipeline for any index is out of range. -/
theorem builder_second_build_wrong (calls : List BuilderCall) (images buffers : List Att.Attachment) (m i : Nat) :
    ((((builder calls).build).2.build.1.base.holder images buffers m).getProgram i).map (·.1) = none := by
  rw [getProgram_new]
  have h : ∀ b : Builder, (b.build.2.build.1.base) = b.base.moved := fun b => rfl
  rw [h]
  unfold Base.saidPrograms Base.saidCreator Base.moved
  cases (builder calls {}).base.programs <;> cases (builder calls {}).base.creator <;> rfl

/-! ### Meshes are culled as at construction -/

/-- **C90** fails for the cull mode of a mesh: it is the one callback that is not asked again; two passes whose callback
answered the same at construction have the same pipelines, whatever it answers afterwards. -/
theorem mesh_cull_mode_fixed_wrong (calls : List MeshCall) (f g : Read Nat) (t₀ : Nat) (h : f t₀ = g t₀) (size : Nat × Nat)
    (blend : Nat) :
    ((meshConfig (calls ++ [.getCullMode f])).data t₀).pipeInfo size blend =
    ((meshConfig (calls ++ [.getCullMode g])).data t₀).pipeInfo size blend := by
  simp only [meshConfig, List.foldl_append, List.foldl_cons, List.foldl_nil, MeshCall.apply, MeshConfig.data,
    MeshData.pipeInfo, h]

/-! ### A non-trivial case -/

/-- Calls that override one another. -/
def eQuad : List QuadCall :=
  [.program 5, .instances 2, .layout 7, .isEnabled (fun t => t % 2 == 0), .programs [8, 9], .instances 3,
    .renderPosition 4 (-1), .enabled (some fun _ => false), .passIndex (some fun t => t)]

example : Settled QuadCall.saysInstances 1 eQuad 3 :=
  Or.inl ⟨[.program 5, .instances 2, .layout 7, .isEnabled (fun t => t % 2 == 0), .programs [8, 9]], .instances 3,
    [.renderPosition 4 (-1), .enabled (some fun _ => false), .passIndex (some fun t => t)], rfl, rfl,
    by simp [QuadCall.saysInstances]⟩

example : (quadConfig eQuad).data.commands 3 [6] 1 =
    some [some (.bindVertex 6 0), some (.draw 3 3 0 0), none] := by rfl
example : (((quadConfig eQuad).base.holder [] [] 2).getProgram 1).map (·.1) = some 9 := by rfl
example : ((quadConfig eQuad).data.draw 3).isOn = false ∧ ((quadConfig eQuad).data.draw 4).isOn = true ∧
    ((quadConfig eQuad).data.draw 4).index = 4 := by decide

/-- A builder told a program: the first pass has it, the second has not. -/
def eBuilder : List BuilderCall := [.program 5, .renderSize 8 8]
example : ((((builder eBuilder).build).1.base.holder [] [] 1).getProgram 0).map (·.1) = some 5 := by rfl
example : ((((builder eBuilder).build).2.build.1.base.holder [] [] 1).getProgram 0).map (·.1) = none := by rfl

/-- A mesh and a compute pass. -/
def eMesh : List MeshCall := [.vertexBuffer [3], .indexBuffer [4], .getPrimitiveCount fun t => 3 * t, .getIndexType fun _ => 0,
  .getCullMode fun t => t]
example : ((meshConfig eMesh).data 2).commands 5 0 =
    some [some (.bindVertex 3 0), some (.bindIndex 4 0 0), some (.drawIndexed 15 1 0 0 0), none] := by rfl
example : (((meshConfig eMesh).data 2).pipeInfo (4, 4) 0).cullMode = 2 := by rfl

def eCompute : List ComputeCall := [.groupCountX 4, .groupCountY 2, .getGroupCountX fun t => t, .finish fun _ => [.other 1],
  .passIndex (some fun _ => 1), .getPassIndex fun _ => 2]
example : (computeConfig eCompute).commands 9 0 = some [.dispatch (.direct 9 2 1), .cmd (.other 1)] := by rfl
example : (computeConfig eCompute).index 0 = some 2 := by rfl
example : (∀ c ∈ eCompute, c.saysGetY = none) ∧ ∀ c ∈ eCompute, c.saysGetZ = none := by
  constructor <;> simp [eCompute, ComputeCall.saysGetY, ComputeCall.saysGetZ]

end Verif.Cfg
