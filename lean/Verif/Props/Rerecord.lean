import Verif.Lemmas.Rerecord
import Verif.Props.RenderPass
import Verif.Props.Library
import Verif.Props.History
import Verif.Props.Settle
/-! C100: recording a pass again on its own (`reRecordCurrent`). -/
namespace Verif.Rerec
open Verif.Rec Verif.Att Verif.Run Verif.Gpu

/-! ### The recording of the graph, with and without snapshots -/

theorem recordLoop_erase (R : Nat → Bool) (env : Env) (G : GraphSt) (index : Nat → Nat) : ∀ (ps : List RunPass) (s : Snaps) (f : Frame),
    (recordLoop R env G index ps s f).map (·.2) = Run.recordLoop env G index ps f
  | [], _, _ => rfl
  | p :: next, s, f => by
    unfold recordLoop Run.recordLoop recordInto
    simp only
    cases Run.recordInto env G p (index p.id) { f with recd := { f.recd with ctx := announce env G p next f.recd.ctx } } with
    | none => rfl
    | some f1 => exact recordLoop_erase R env G index next _ f1

/-- The recording of a graph is the one of the model without snapshots (`Run.record`). -/
theorem record_erase {R : Nat → Bool} {h : St} {env index deps passes} :
    (step R h (.record env index deps passes)).map (fun h' => (h'.G, h'.main))
      = (Run.record env h.G deps index passes h.initialised h.log).map (fun x => (x.1, x.2.recd.cmds)) := by
  unfold Run.record
  simp only [step]
  rw [← recordLoop_erase R env h.G index passes h.snaps]
  cases recordLoop R env h.G index passes h.snaps ⟨⟨firstAnnounce env.sepDS passes (startCtx deps), []⟩, h.initialised, h.log⟩ with
  | none => rfl
  | some x => rfl

/-! ### No effect on what the graph records -/

theorem loop_recd (env : Env) (G : GraphSt) (index : Nat → Nat) : ∀ (ps : List RunPass) (f f' : Frame), f'.recd = f.recd →
    (Run.recordLoop env G index ps f').map (·.recd) = (Run.recordLoop env G index ps f).map (·.recd)
  | [], _, _, h => by simp [Run.recordLoop, h]
  | p :: next, f, f', h => by
    unfold Run.recordLoop
    simp only
    have h1 := recordInto_into env G p (index p.id) { f with recd := { f.recd with ctx := announce env G p next f.recd.ctx } }
    have h2 := recordInto_into env G p (index p.id) { f' with recd := { f'.recd with ctx := announce env G p next f'.recd.ctx } }
    simp only [h] at h2
    rw [← h1] at h2
    rw [h]
    cases e1 : Run.recordInto env G p (index p.id) { f with recd := { f.recd with ctx := announce env G p next f.recd.ctx } } with
    | none =>
      rw [e1] at h2
      cases e2 : Run.recordInto env G p (index p.id) { f' with recd := { f.recd with ctx := announce env G p next f.recd.ctx } } with
      | none => rfl
      | some f2 => rw [e2] at h2; simp at h2
    | some f1 =>
      rw [e1] at h2
      cases e2 : Run.recordInto env G p (index p.id) { f' with recd := { f.recd with ctx := announce env G p next f.recd.ctx } } with
      | none => rw [e2] at h2; simp at h2
      | some f2 =>
        rw [e2] at h2
        exact loop_recd env G index next f1 f2 (by simpa using h2)

/-- What a recording of the graph gives depends only on what the graph remembers. -/
theorem record_same (R : Nat → Bool) {h h' : St} (hG : h'.G = h.G) (env index deps passes) :
    (step R h' (.record env index deps passes)).map (fun x => (x.main, x.G))
      = (step R h (.record env index deps passes)).map (fun x => (x.main, x.G)) := by
  have hl := loop_recd env h.G index passes ⟨⟨firstAnnounce env.sepDS passes (startCtx deps), []⟩, h.initialised, h.log⟩
    ⟨⟨firstAnnounce env.sepDS passes (startCtx deps), []⟩, h'.initialised, h'.log⟩ rfl
  rw [← recordLoop_erase R env h.G index passes h.snaps ⟨_, h.initialised, h.log⟩,
    ← recordLoop_erase R env h.G index passes h'.snaps ⟨_, h'.initialised, h'.log⟩] at hl
  simp only [step]
  rw [hG]
  cases e1 : recordLoop R env h.G index passes h.snaps ⟨⟨firstAnnounce env.sepDS passes (startCtx deps), []⟩, h.initialised, h.log⟩ with
  | none =>
    rw [e1] at hl
    cases e2 : recordLoop R env h.G index passes h'.snaps ⟨⟨firstAnnounce env.sepDS passes (startCtx deps), []⟩, h'.initialised, h'.log⟩ with
    | none => rfl
    | some x => rw [e2] at hl; simp at hl
  | some x =>
    rw [e1] at hl
    cases e2 : recordLoop R env h.G index passes h'.snaps ⟨⟨firstAnnounce env.sepDS passes (startCtx deps), []⟩, h'.initialised, h'.log⟩ with
    | none => rw [e2] at hl; simp at hl
    | some y =>
      rw [e2] at hl
      simp only [Option.map_some, Option.some.injEq] at hl
      simp only [Option.map_some, hl]

theorem reRecord_graph {R : Nat → Bool} {h h' : St} {env i p} (e : step R h (.reRecord env i p) = some h') :
    h'.G = h.G ∧ h'.main = h.main := by
  simp only [step] at e
  split at e
  · split at e
    · split at e
      · cases e
      · injection e with e
        subst e
        exact ⟨rfl, rfl⟩
    · injection e with e
      subst e
      exact ⟨rfl, rfl⟩
  · cases e

theorem seen_same (R : Nat → Bool) : ∀ (ops : List Op) (h h' : St), h'.G = h.G → (∀ o ∈ ops, o.whole = true) →
    seen R h' ops = seen R h ops
  | [], _, _, _, _ => rfl
  | .reRecord .. :: os, h, h', _, hw => by simp [Op.whole] at hw
  | .record env index deps passes :: os, h, h', hG, hw => by
    have hs := record_same R hG env index deps passes
    unfold seen
    cases e1 : step R h (.record env index deps passes) with
    | none =>
      rw [e1] at hs
      cases e2 : step R h' (.record env index deps passes) with
      | none => rfl
      | some x => rw [e2] at hs; simp at hs
    | some x =>
      rw [e1] at hs
      cases e2 : step R h' (.record env index deps passes) with
      | none => rw [e2] at hs; simp at hs
      | some y =>
        rw [e2] at hs
        simp only [Option.map_some, Option.some.injEq, Prod.mk.injEq] at hs
        simp only
        rw [seen_same R os x y hs.2 (fun o ho => hw o (by simp [ho])), hs.1, hs.2]

/-- C100, first part. Recording passes again on their own, any number of times, in any order, at any point of any history,
changes nothing of what the recordings of the whole graph give: the commands that are submitted, and the states the graph
remembers and hands to the graphs that depend on it. -/
theorem rerecording_changes_nothing (R : Nat → Bool) : ∀ (ops : List Op) (h : St) (l : List (List Cmd × GraphSt)),
    seen R h ops = some l → seen R h (ops.filter Op.whole) = some l
  | [], _, _, e => e
  | o :: os, h, l, e => by
    unfold seen at e
    cases hs : step R h o with
    | none => rw [hs] at e; cases e
    | some h1 =>
      rw [hs] at e
      simp only at e
      cases hr : seen R h1 os with
      | none => rw [hr] at e; cases e
      | some l1 =>
        rw [hr] at e
        simp only [Option.some.injEq] at e
        have ih := rerecording_changes_nothing R os h1 l1 hr
        cases o with
        | record env index deps passes =>
          rw [List.filter_cons_of_pos (by rfl)]
          unfold seen
          rw [hs]
          simp only
          rw [ih]
          exact congrArg some e
        | reRecord env i p =>
          rw [List.filter_cons_of_neg (by simp [Op.whole])]
          have hG := (reRecord_graph hs).1
          rw [← seen_same R (os.filter Op.whole) h h1 hG (fun o ho => (List.mem_filter.1 ho).2), ih]
          simpa [Op.whole] using e

/-! ### The snapshots -/

theorem keep_self (s : Snaps) (p i c) : s.keep p i c p i = c := by simp [Snaps.keep]

theorem keep_other {s : Snaps} {p i c q j} (h : ¬(q = p ∧ j = i)) : s.keep p i c q j = s q j := if_neg h

theorem loop_spares (R : Nat → Bool) (env : Env) (G : GraphSt) (index : Nat → Nat) (q j : Nat) : ∀ (ps : List RunPass) (s : Snaps)
    (f : Frame) (x : Snaps × Frame), recordLoop R env G index ps s f = some x → (∀ p ∈ ps, p.id = q → index q ≠ j) →
    x.1 q j = s q j
  | [], _, _, _, e, _ => by cases e; rfl
  | p :: next, s, f, x, e, h => by
    unfold recordLoop recordInto at e
    simp only at e
    cases e1 : Run.recordInto env G p (index p.id) { f with recd := { f.recd with ctx := announce env G p next f.recd.ctx } } with
    | none => rw [e1] at e; cases e
    | some f1 =>
      rw [e1] at e
      simp only [Option.map_some] at e
      rw [loop_spares R env G index q j next _ f1 x e (fun p' hp' => h p' (by simp [hp']))]
      split
      · refine keep_other ?_
        rintro ⟨e2, e3⟩
        exact h p (by simp) e2.symm (by rw [e2]; exact e3.symm)
      · rfl

theorem into_extends {p : RunPass} (hb : Blind p) {env G i f f'} (e : Run.recordInto env G p i f = some f') :
    ∃ r, into env G p i ⟨f.recd.ctx, []⟩ = some r ∧ f'.recd = shift f.recd.cmds r := by
  have h1 := recordInto_into env G p i f
  rw [e] at h1
  have h2 := shift_into hb f.recd.cmds env G i ⟨f.recd.ctx, []⟩
  rw [shift_nil] at h2
  have h2 : into env G p i f.recd = _ := h2
  rw [h2] at h1
  cases h3 : into env G p i ⟨f.recd.ctx, []⟩ with
  | none => rw [h3] at h1; simp at h1
  | some r =>
    rw [h3] at h1
    exact ⟨r, rfl, by simpa using h1⟩

theorem loop_extends (env : Env) (G : GraphSt) (index : Nat → Nat) : ∀ (ps : List RunPass) (f f' : Frame),
    (∀ p ∈ ps, Blind p) → Run.recordLoop env G index ps f = some f' → ∃ B, f'.recd.cmds = f.recd.cmds ++ B
  | [], _, _, _, e => by cases e; exact ⟨[], by simp⟩
  | p :: next, f, f', hb, e => by
    unfold Run.recordLoop at e
    simp only at e
    cases e1 : Run.recordInto env G p (index p.id) { f with recd := { f.recd with ctx := announce env G p next f.recd.ctx } } with
    | none => rw [e1] at e; cases e
    | some f1 =>
      rw [e1] at e
      obtain ⟨r, -, h1⟩ := into_extends (hb p (by simp)) e1
      obtain ⟨B, h2⟩ := loop_extends env G index next f1 f' (fun q hq => hb q (by simp [hq])) e
      exact ⟨r.cmds ++ B, by rw [h2, h1]; simp⟩

/-- What the recording of the graph leaves for a pass: recording from the snapshot gives what it added. -/
theorem loop_snap (R : Nat → Bool) (env : Env) (G : GraphSt) (index : Nat → Nat) {q : RunPass} (hR : R q.id = true) :
    ∀ (ps : List RunPass) (s : Snaps) (f : Frame) (x : Snaps × Frame), recordLoop R env G index ps s f = some x →
    (ps.map (·.id)).Nodup → q ∈ ps → (∀ p ∈ ps, Blind p) →
    ∃ r, into env G q (index q.id) ⟨x.1 q.id (index q.id), []⟩ = some r ∧ Adds env G index ps f q r.cmds
      ∧ ∃ A B, x.2.recd.cmds = A ++ r.cmds ++ B
  | [], _, _, _, _, _, hq, _ => by simp at hq
  | p :: next, s, f, x, e, hn, hq, hb => by
    simp only [List.map_cons, List.nodup_cons] at hn
    unfold recordLoop recordInto at e
    simp only at e
    cases e1 : Run.recordInto env G p (index p.id) { f with recd := { f.recd with ctx := announce env G p next f.recd.ctx } } with
    | none => rw [e1] at e; cases e
    | some f1 =>
      rw [e1] at e
      simp only [Option.map_some] at e
      by_cases hqp : q = p
      · subst hqp
        rw [if_pos hR] at e
        have hs := loop_spares R env G index q.id (index q.id) next _ f1 x e
          (fun p' hp' hid => absurd (List.mem_map_of_mem (f := fun (p : RunPass) => p.id) hp') (by rw [hid]; exact hn.1))
        rw [keep_self] at hs
        rw [hs]
        obtain ⟨r, h3, h1⟩ := into_extends (hb q (by simp)) e1
        refine ⟨r, h3, ⟨f1, e1, Or.inl ⟨rfl, by rw [h1]; rfl⟩⟩, ?_⟩
        have hl := recordLoop_erase R env G index next (s.keep q.id (index q.id) (announce env G q next f.recd.ctx)) f1
        rw [e] at hl
        obtain ⟨B, hB⟩ := loop_extends env G index next f1 x.2 (fun p hp => hb p (by simp [hp])) hl.symm
        exact ⟨f.recd.cmds, B, by rw [hB, h1]; rfl⟩
      · rcases List.mem_cons.1 hq with hq | hq
        · exact absurd hq hqp
        · obtain ⟨r, i1, i2, A, B, i3⟩ := loop_snap R env G index hR next _ f1 x e hn.2 hq (fun p' hp' => hb p' (by simp [hp']))
          exact ⟨r, i1, ⟨f1, e1, Or.inr i2⟩, A, B, i3⟩

theorem step_inputs {R : Nat → Bool} {h h' : St} {o : Op} (e : step R h o = some h') : h'.G.inputs = h.G.inputs := by
  cases o with
  | reRecord env i p => rw [(reRecord_graph e).1]
  | record env index deps passes =>
    simp only [step] at e
    split at e
    · cases e
    · injection e with e
      subst e
      rfl

theorem step_outputs {R : Nat → Bool} {h h' : St} {o : Op} (e : step R h o = some h') : h'.G.outputs = h.G.outputs := by
  cases o with
  | reRecord env i p => rw [(reRecord_graph e).1]
  | record env index deps passes =>
    simp only [step] at e
    split at e
    · cases e
    · injection e with e
      subst e
      rfl

theorem steps_outputs {R : Nat → Bool} : ∀ {ops : List Op} {h h' : St}, steps R h ops = some h' → h'.G.outputs = h.G.outputs
  | [], _, _, e => by cases e; rfl
  | o :: os, h, h', e => by
    unfold steps at e
    cases e1 : step R h o with
    | none => rw [e1] at e; cases e
    | some h1 =>
      rw [e1] at e
      exact (steps_outputs e).trans (step_outputs e1)

theorem step_spares {R : Nat → Bool} {h h' : St} {o : Op} (e : step R h o = some h') {q j : Nat} (ho : o.spares q j) :
    h'.snaps q j = h.snaps q j := by
  cases o with
  | reRecord env i p =>
    simp only [step, recordInto] at e
    split at e
    · rename_i hR
      split at e
      · split at e
        · cases e
        · rename_i s f e2
          injection e with e
          subst e
          obtain ⟨f1, -, e4⟩ := Option.map_eq_some_iff.1 e2
          injection e4 with e4 e5
          show s q j = _
          rw [← e4]
          by_cases hc : q = p.id ∧ j = i
          · obtain ⟨rfl, rfl⟩ := hc
            rw [keep_self]
          · rw [keep_other hc]
      · injection e with e
        subst e
        rfl
    · cases e
  | record env index deps passes =>
    simp only [step] at e
    split at e
    · cases e
    · rename_i s f e2
      injection e with e
      subst e
      exact loop_spares R env h.G index q j passes _ _ _ e2 ho

theorem steps_spares {R : Nat → Bool} {q j : Nat} : ∀ {ops : List Op} {h h' : St}, steps R h ops = some h' →
    (∀ o ∈ ops, o.spares q j) → h'.snaps q j = h.snaps q j ∧ h'.G.inputs = h.G.inputs
  | [], _, _, e, _ => by cases e; exact ⟨rfl, rfl⟩
  | o :: os, h, h', e, ho => by
    unfold steps at e
    cases e1 : step R h o with
    | none => rw [e1] at e; cases e
    | some h1 =>
      rw [e1] at e
      obtain ⟨i1, i2⟩ := steps_spares e (fun o' h' => ho o' (by simp [h']))
      exact ⟨i1.trans (step_spares e1 (ho o (by simp))), i2.trans (step_inputs e1)⟩

theorem reRecord_own {R : Nat → Bool} {h : St} {env i} {p : RunPass} (hR : R p.id = true) (hi : i < p.maxPassCount) {r : Rec}
    (e : into env h.G p i ⟨h.snaps p.id i, []⟩ = some r) :
    ∃ h', step R h (.reRecord env i p) = some h' ∧ h'.own p.id i = some r.cmds
      ∧ ∀ q j, ¬(q = p.id ∧ j = i) → h'.own q j = h.own q j := by
  have h1 := recordInto_into env h.G p i ⟨⟨h.snaps p.id i, []⟩, h.initialised, h.log⟩
  rw [e] at h1
  obtain ⟨f, h2, h3⟩ := Option.map_eq_some_iff.1 h1
  simp only [step, recordInto, if_pos hR, if_pos hi, h2, Option.map_some]
  refine ⟨_, rfl, ?_, ?_⟩
  · simp [h3]
  · intro q j hq
    simp only
    rw [if_neg hq]

theorem registerAll_cmds (p : RunPass) (r : Rec) : (registerAll p r).cmds = r.cmds := by
  unfold registerAll
  generalize p.implicitActions = l
  induction l generalizing r with
  | nil => rfl
  | cons a l ih => exact ih _

/-- The pass with other callbacks. -/
def callsBack (p : RunPass) (b : Nat → Rec → Rec) : RunPass := { p with body := b }

theorem into_callsBack {env : Env} {G : GraphSt} {p : RunPass} {b : Nat → Rec → Rec} {i : Nat} {r0 r : Rec}
    (e : into env G p i r0 = some r)
    (h : ∀ r1, prepare env G p i r0 = some r1 → (b i r1).cmds = (p.body i r1).cmds) :
    ∃ r', into env G (callsBack p b) i r0 = some r' ∧ r'.cmds = r.cmds := by
  unfold into at e ⊢
  by_cases he : env.enabled p.id = true
  · rw [if_pos he] at e
    rw [if_pos (show env.enabled (callsBack p b).id = true from he)]
    by_cases hi : i < p.maxPassCount
    · rw [if_pos hi] at e
      rw [if_pos (show i < (callsBack p b).maxPassCount from hi)]
      obtain ⟨r1, h1, h2⟩ := Option.map_eq_some_iff.1 e
      refine ⟨registerAll (callsBack p b) (b i r1), ?_, ?_⟩
      · rw [show prepare env G (callsBack p b) i r0 = some r1 from h1]
        rfl
      · rw [← h2, registerAll_cmds, registerAll_cmds, h r1 h1]
    · rw [if_neg hi] at e
      cases e
  · rw [if_neg he] at e
    rw [if_neg (show ¬env.enabled (callsBack p b).id = true from he)]
    injection e with e
    exact ⟨_, rfl, by rw [← e, registerAll_cmds, registerAll_cmds]⟩

/-- The common part: `b` is what the callbacks of the pass do when it is recorded again. -/
theorem rerecording_with (R : Nat → Bool) {h h1 h2 : St} {env : Env} {index : Nat → Nat} {deps : List Ctx}
    {passes : List RunPass} {mid : List Op} {p : RunPass} (b : Nat → Rec → Rec)
    (e1 : step R h (.record env index deps passes) = some h1) (e2 : steps R h1 mid = some h2)
    (hmid : ∀ o ∈ mid, o.spares p.id (index p.id))
    (hn : (passes.map (·.id)).Nodup) (hb : ∀ q ∈ passes, Blind q)
    (hp : p ∈ passes) (hR : R p.id = true) (hi : index p.id < p.maxPassCount)
    (hS : Settled p (index p.id) (h1.snaps p.id (index p.id)).images h.G.inputs h.G.final.images h2.G.final.images)
    (hB : ∀ r1, prepare env h.G p (index p.id) ⟨h1.snaps p.id (index p.id), []⟩ = some r1 →
      (b (index p.id) r1).cmds = (p.body (index p.id) r1).cmds) :
    ∃ h3 cs, step R h2 (.reRecord env (index p.id) (callsBack p b)) = some h3
      ∧ h3.own p.id (index p.id) = some cs
      ∧ Adds env h.G index passes ⟨⟨firstAnnounce env.sepDS passes (startCtx deps), []⟩, h.initialised, h.log⟩ p cs
      ∧ ∃ A B, h1.main = A ++ cs ++ B := by
  obtain ⟨m1, m2⟩ := steps_spares e2 hmid
  have hin := m2.trans (step_inputs e1)
  simp only [step] at e1
  split at e1
  · cases e1
  · rename_i s f e3
    injection e1 with e1
    subst e1
    obtain ⟨r, i1, i2, A, B, i3⟩ := loop_snap R env h.G index hR passes _ _ _ e3 hn hp hb
    obtain ⟨r', k1, k2⟩ := into_callsBack i1 hB
    have h4 : into env h2.G (callsBack p b) (index p.id) ⟨h2.snaps p.id (index p.id), []⟩ = some r' := by
      rw [m1]
      exact (into_same env (p := callsBack p b) (i := index p.id) (r := ⟨s p.id (index p.id), []⟩) hin hS).trans k1
    obtain ⟨h3, j1, j2, -⟩ := reRecord_own (p := callsBack p b) hR hi h4
    refine ⟨h3, r'.cmds, j1, j2, ?_, A, B, ?_⟩
    · rw [k2]; exact i2
    · rw [k2]; exact i3

/-- C100, second part (partial: the views whose layout the tracker did not know when the pass was recorded are inputs of the
graph, or the graph remembers the same of them). The graph is recorded; `p` is recorded in it, at some index. Whatever happens
next - recordings of passes on their own, recordings of the graph in which `p` has another index, or isn't - recording `p`
again on its own, at that index, with callbacks that record the same, gives exactly the commands it had added to the command
buffer of the graph. -/
theorem rerecording_repeats_partial (R : Nat → Bool) {h h1 h2 : St} {env : Env} {index : Nat → Nat} {deps : List Ctx}
    {passes : List RunPass} {mid : List Op} {p : RunPass}
    (e1 : step R h (.record env index deps passes) = some h1) (e2 : steps R h1 mid = some h2)
    (hmid : ∀ o ∈ mid, o.spares p.id (index p.id))
    (hn : (passes.map (·.id)).Nodup) (hb : ∀ q ∈ passes, Blind q)
    (hp : p ∈ passes) (hR : R p.id = true) (hi : index p.id < p.maxPassCount)
    (hS : Settled p (index p.id) (h1.snaps p.id (index p.id)).images h.G.inputs h.G.final.images h2.G.final.images) :
    ∃ h3 cs, step R h2 (.reRecord env (index p.id) p) = some h3
      ∧ h3.own p.id (index p.id) = some cs
      ∧ Adds env h.G index passes ⟨⟨firstAnnounce env.sepDS passes (startCtx deps), []⟩, h.initialised, h.log⟩ p cs
      ∧ ∃ A B, h1.main = A ++ cs ++ B :=
  rerecording_with R p.body e1 e2 hmid hn hb hp hR hi hS fun _ _ => rfl

/-! ### Drawing passes -/

theorem keeps_foldOpt {α : Type} (f : Rec → α → Option Rec) (h : ∀ r a r', f r a = some r' → Keeps r r') : ∀ (l : List α) (r r' : Rec),
    foldOpt f r l = some r' → Keeps r r'
  | [], _, _, e => by cases e; exact Keeps.refl _
  | a :: l, r, r', e => by
    unfold foldOpt at e
    cases e1 : f r a with
    | none => rw [e1] at e; cases e
    | some r1 =>
      rw [e1] at e
      exact (h _ _ _ e1).trans (keeps_foldOpt f h l r1 r' e)

theorem keeps_bufferBarrier (r b o s i w f) : Keeps r (Rec.bufferBarrier r b o s i w f) := by
  obtain ⟨y, x, e⟩ := bufferBarrier_form r.ctx b o s i w f
  have e : Rec.bufferBarrier r b o s i w f = _ := e r.cmds
  rw [e]
  cases y
  · exact Keeps.refl _
  · exact Keeps.same rfl

theorem keeps_recordBuffer {compute index r a r'} (e : recordBuffer compute index r a = some r') : Keeps r r' := by
  unfold recordBuffer at e
  split at e
  · split at e
    · cases e
    · simp only at e
      split at e
      · injection e with e
        subst e
        exact (keeps_bufferBarrier ..).trans ((keeps_emit ..).trans (keeps_bufferBarrier ..))
      · injection e with e
        subst e
        exact keeps_bufferBarrier ..
  · injection e with e
    subst e
    exact Keeps.refl _

theorem keeps_prepare {env G p index r r'} (e : prepare env G p index r = some r') : Keeps r r' := by
  unfold prepare at e
  split at e
  · cases e
  · rename_i r1 h1
    exact (keeps_foldOpt _ (fun _ _ _ h => keeps_recordImage h) _ _ _ h1).trans
      (keeps_foldOpt _ (fun _ _ _ h => keeps_recordBuffer h) _ _ _ e)

theorem next_same {sepDS : Bool} {G G' : GraphSt} (ho : G'.outputs = G.outputs) (c : Ctx) (p : RunPass) (v : View) :
    getNextLayoutState sepDS G' c p v = getNextLayoutState sepDS G c p v := by
  unfold getNextLayoutState
  rw [ho]

open RPass in
theorem createAll_same {sepDS : Bool} {G G' : GraphSt} (hi : G'.inputs = G.inputs) (ho : G'.outputs = G.outputs) {p : RunPass}
    (hD : Declares sepDS p) {i : Nat} : ∀ (l : List Attachment) (o : PassObj) (c : Ctx), (∀ a ∈ l, a ∈ p.images) →
    (∀ a ∈ l, isTarget a = true → ∀ v, a.img.view i = some v → Knows c.images v ∨ Knows G.inputs v
      ∨ G.final.images.getState v.image v.viewType v.range = G'.final.images.getState v.image v.viewType v.range) →
    RPass.foldOpt (createOne sepDS G' p i) (o, c) l = RPass.foldOpt (createOne sepDS G p i) (o, c) l
  | [], _, _, _, _ => rfl
  | a :: l, o, c, hl, h => by
    have h1 : createOne sepDS G' p i (o, c) a = createOne sepDS G p i (o, c) a := by
      unfold createOne
      by_cases ht : isTarget a = true
      · rw [if_pos ht, if_pos ht]
        cases hv : a.img.view i with
        | none => rfl
        | some v =>
          simp only
          rw [current_same hi (h a (by simp) ht v hv), next_same ho]
      · rw [if_neg ht, if_neg ht]
    unfold RPass.foldOpt
    rw [h1]
    cases e : createOne sepDS G p i (o, c) a with
    | none => rfl
    | some oc =>
      simp only
      have hk : ∀ v, Knows c.images v → Knows oc.2.images v := by
        intro w hw
        unfold createOne at e
        by_cases ht : isTarget a = true
        · rw [if_pos ht] at e
          cases hv : a.img.view i with
          | none => rw [hv] at e; cases e
          | some v =>
            rw [hv] at e
            simp only at e
            have h2 : Knows (getCurrentLayoutState G c v).2.images w := (keeps_current G ⟨c, []⟩ v).all w hw
            have h3 := knows_set h2 v.image v.viewType v.range
              (s := getNextLayoutState sepDS G (getCurrentLayoutState G c v).2 p v)
              (next_defined hD (hl a (by simp)) (view_mem hv) _)
            split at e
            · injection e with e
              subst e
              exact h3
            · injection e with e
              subst e
              exact h3
        · rw [if_neg ht] at e
          injection e with e
          subst e
          exact hw
      exact createAll_same hi ho hD l oc.1 oc.2 (fun b hb => hl b (by simp [hb]))
        fun b hb ht v hv => (h b (by simp [hb]) ht v hv).imp (hk v) _root_.id

open RPass in
/-- Drawing again in the same context, with the object drawn with, records the same commands. -/
theorem draws_same {sepDS : Bool} {G G' : GraphSt} (hi : G'.inputs = G.inputs) (ho : G'.outputs = G.outputs) {p : RunPass}
    (hD : Declares sepDS p) {i w h : Nat} {cached : Option PassObj} {draw : List Nat} {r r1 : Rec} {o : PassObj}
    (hS : ∀ a ∈ p.images, isTarget a = true → ∀ v, a.img.view i = some v → Knows r.ctx.images v ∨ Knows G.inputs v
      ∨ G.final.images.getState v.image v.viewType v.range = G'.final.images.getState v.image v.viewType v.range)
    (e : recordPass sepDS G w h p cached draw i r = some (o, r1)) :
    ∃ o2 r2, recordPass sepDS G' w h p (some o) draw i r = some (o2, r2) ∧ r2.cmds = r1.cmds := by
  unfold recordPass at e ⊢
  obtain ⟨⟨o', b, c⟩, e1, e2⟩ := Option.map_eq_some_iff.1 e
  simp only [Prod.mk.injEq] at e2
  obtain ⟨rfl, rfl⟩ := e2
  by_cases hc : (checkAttaches r.ctx o'.entries && (o'.prev == r.ctx.prev && o'.next == r.ctx.next)) = true
  · have hg : initialise sepDS G' w h p i (some o') r.ctx = some (o', false, r.ctx) := by
      unfold initialise
      simp only
      exact if_pos hc
    rw [hg]
    exact ⟨_, _, rfl, rfl⟩
  · have hf : initialise sepDS G w h p i none r.ctx = some (o', b, c) := by
      cases cached with
      | none => exact e1
      | some o0 =>
        unfold initialise at e1 ⊢
        simp only at e1 ⊢
        by_cases hc0 : (checkAttaches r.ctx o0.entries && (o0.prev == r.ctx.prev && o0.next == r.ctx.next)) = true
        · rw [if_pos hc0] at e1
          injection e1 with e1
          injection e1 with e1 e3
          subst e1
          exact absurd hc0 hc
        · rw [if_neg hc0] at e1
          exact e1
    have hf' : initialise sepDS G' w h p i none r.ctx = some (o', b, c) := by
      rw [← hf]
      unfold initialise create
      rw [createAll_same hi ho hD p.images {} r.ctx (fun _ h => h) hS]
    have hg : initialise sepDS G' w h p i (some o') r.ctx = some (o', b, c) := by
      unfold initialise at hf' ⊢
      simp only at hf' ⊢
      rw [if_neg hc]
      exact hf'
    rw [hg]
    exact ⟨_, _, rfl, rfl⟩

open RPass in
/-- C100, second part, for a pass that draws in a render pass of its own (partial as above, for its targets too). `made` is the
render pass object it drew with when the graph was recorded, which it kept. -/
theorem rerecording_draws_partial (R : Nat → Bool) {h h1 h2 : St} {env : Env} {index : Nat → Nat} {deps : List Ctx}
    {passes : List RunPass} {mid : List Op} {p : RunPass}
    (e1 : step R h (.record env index deps passes) = some h1) (e2 : steps R h1 mid = some h2)
    (hmid : ∀ o ∈ mid, o.spares p.id (index p.id))
    (hn : (passes.map (·.id)).Nodup) (hb : ∀ q ∈ passes, Blind q)
    (hp : p ∈ passes) (hR : R p.id = true) (hi : index p.id < p.maxPassCount) (hD : Declares env.sepDS p)
    (hS : Settled p (index p.id) (h1.snaps p.id (index p.id)).images h.G.inputs h.G.final.images h2.G.final.images)
    (hT : SettledTargets p (index p.id) (h1.snaps p.id (index p.id)).images h.G.inputs h.G.final.images h2.G.final.images)
    {w ht : Nat} {draw : List Nat} {cached made : Option PassObj}
    (hbody : ∀ r, p.body (index p.id) r = ((recordPass env.sepDS h.G w ht p cached draw (index p.id) r).map (·.2)).getD r)
    (hmade : ∀ r, prepare env h.G p (index p.id) ⟨h1.snaps p.id (index p.id), []⟩ = some r →
      made = (recordPass env.sepDS h.G w ht p cached draw (index p.id) r).map (·.1)) :
    ∃ h3 cs, step R h2 (.reRecord env (index p.id) (callsBack p fun i r =>
        ((recordPass env.sepDS h2.G w ht p made draw i r).map (·.2)).getD r)) = some h3
      ∧ h3.own p.id (index p.id) = some cs
      ∧ Adds env h.G index passes ⟨⟨firstAnnounce env.sepDS passes (startCtx deps), []⟩, h.initialised, h.log⟩ p cs
      ∧ ∃ A B, h1.main = A ++ cs ++ B := by
  have hin := (steps_spares e2 hmid).2.trans (step_inputs e1)
  have hout := (steps_outputs e2).trans (step_outputs e1)
  refine rerecording_with R _ e1 e2 hmid hn hb hp hR hi hS fun r1 hr1 => ?_
  rw [hbody]
  have hm := hmade r1 hr1
  cases e : recordPass env.sepDS h.G w ht p cached draw (index p.id) r1 with
  | none =>
    exfalso
    have hv := Settle.prepare_views hr1
    obtain ⟨x, e'⟩ := Settle.recordPass_some (sepDS := env.sepDS) (G := h.G) (w := w) (h := ht) hv cached draw r1
    rw [e] at e'
    cases e'
  | some x =>
    rw [e] at hm
    obtain ⟨o2, r2, h5, h6⟩ := draws_same hin hout hD
      (fun a ha ht v hv => (hT a ha ht v hv).imp ((keeps_prepare hr1).all v) _root_.id) e
    rw [hm]
    show (((recordPass env.sepDS h2.G w ht p (some x.1) draw (index p.id) r1).map (·.2)).getD r1).cmds = _
    rw [h5]
    exact h6

/-- C100, third part: recording a pass again, then again - whatever passes are recorded alone in between - gives the same
commands. -/
theorem rerecording_idempotent (R : Nat → Bool) {h h1 h2 : St} {env : Env} {i : Nat} {p : RunPass} {mid : List Op}
    (e1 : step R h (.reRecord env i p) = some h1) (e2 : steps R h1 mid = some h2) (hmid : ∀ o ∈ mid, o.whole = false) :
    ∃ h3, step R h2 (.reRecord env i p) = some h3 ∧ (i < p.maxPassCount → h3.own p.id i = h1.own p.id i) := by
  have hsp : ∀ o ∈ mid, o.spares p.id i := by
    intro o ho
    have := hmid o ho
    cases o with
    | record => simp [Op.whole] at this
    | reRecord => trivial
  have hG : ∀ {ops : List Op} {a b : St}, steps R a ops = some b → (∀ o ∈ ops, o.whole = false) → b.G = a.G := by
    intro ops
    induction ops with
    | nil => intro a b e _; cases e; rfl
    | cons o os ih =>
      intro a b e hw
      unfold steps at e
      cases e3 : step R a o with
      | none => rw [e3] at e; cases e
      | some a1 =>
        rw [e3] at e
        have h0 : a1.G = a.G := by
          have := hw o (by simp)
          cases o with
          | record => simp [Op.whole] at this
          | reRecord => exact (reRecord_graph e3).1
        exact (ih e (fun o ho => hw o (by simp [ho]))).trans h0
  have s1 := (steps_spares e2 hsp).1.trans (step_spares e1 (o := .reRecord env i p) (q := p.id) (j := i) trivial)
  have g1 := (hG e2 hmid).trans (reRecord_graph e1).1
  by_cases hR : R p.id = true
  · by_cases hi : i < p.maxPassCount
    · have hin := recordInto_into env h.G p i ⟨⟨h.snaps p.id i, []⟩, h.initialised, h.log⟩
      cases h5 : into env h.G p i ⟨h.snaps p.id i, []⟩ with
      | none =>
        rw [h5] at hin
        have := Option.map_eq_none_iff.1 hin
        simp [step, recordInto, hR, hi, this] at e1
      | some r =>
        obtain ⟨a1, b1, b2, -⟩ := reRecord_own hR hi h5
        rw [e1] at b1
        cases b1
        obtain ⟨a3, d1, d2, -⟩ := reRecord_own (h := h2) hR hi (by rw [s1, g1]; exact h5)
        exact ⟨a3, d1, fun _ => d2.trans b2.symm⟩
    · exact ⟨h2, by simp [step, hR, hi], fun h => absurd h hi⟩
  · simp [step, hR] at e1

/-- C85 for the command buffers of the passes: recording a pass of the library again, or one of the user that works through the
recording context, leaves a well formed command buffer: its render pass instance, with its draw commands, if it draws and is
enabled, and none otherwise. -/
theorem rerecorded_instances {R : Nat → Bool} {h h' : St} {env : Env} {i : Nat} {p : RunPass} {d : Option (List Nat)}
    (hB : Brk.Body env.sepDS h.G p d) (hi : i < p.maxPassCount) (e : step R h (.reRecord env i p) = some h') :
    ∃ cs, h'.own p.id i = some cs
      ∧ Brk.Instances cs (if env.enabled p.id then d.toList.map (·.map Cmd.user) else []) := by
  simp only [step, recordInto] at e
  split at e
  · split at e
    · cases e
    · rename_i s f e2
      injection e with e
      subst e
      obtain ⟨f1, e3, e4⟩ := Option.map_eq_some_iff.1 e2
      injection e4 with e4 e5
      subst e5
      obtain ⟨cs, h1, h2⟩ := Brk.ext_recordInto hB e3
      exact ⟨cs, by simp [h1], h2⟩
  · cases e

/-! ### The callbacks of the library are blind -/

theorem blind_getD {f : Rec → Option Rec} {A : List Cmd} (h : ∀ r, f (shift A r) = (f r).map (shift A)) (r : Rec) :
    (f (shift A r)).getD (shift A r) = shift A ((f r).getD r) := by
  rw [h]
  cases f r <;> rfl

theorem shift_perform (A sepDS r c) : perform sepDS (shift A r) c = shift A (perform sepDS r c) := by
  cases c with
  | barrier v i w f => exact shift_viewBarrier ..
  | buffer q => exact shift_bufferBarrier ..
  | register t => rfl
  | use v en => exact shift_runImplicit ..
  | work k => exact shift_emit ..

theorem shift_copyPairs (A env size final index) : ∀ (n : Nat) (l : List Attachment), l.length ≤ n → ∀ (r : Rec),
    Xfer.copyPairs env size final index l (shift A r) = (Xfer.copyPairs env size final index l r).map (shift A)
  | _, [], _, _ => rfl
  | _, [_], _, _ => rfl
  | 0, _ :: _ :: _, h, _ => by simp at h
  | n + 1, s :: t :: rest, h, r => by
    unfold Xfer.copyPairs
    have h1 : Xfer.copyPair env size final index (shift A r) s t = (Xfer.copyPair env size final index r s t).map (shift A) := by
      unfold Xfer.copyPair
      cases s.img.view index with
      | none => rfl
      | some v =>
        cases t.img.view index with
        | none => rfl
        | some w =>
          simp only [Option.map_some]
          rw [shift_emit, shift_finalBarrier]
    rw [h1]
    cases Xfer.copyPair env size final index r s t with
    | none => rfl
    | some r1 => exact shift_copyPairs A env size final index n rest (by simp at h; omega) r1

theorem shift_levelStep (A env img ty next layer r l) :
    Mip.levelStep env img ty next layer (shift A r) l = shift A (Mip.levelStep env img ty next layer r l) := by
  unfold Mip.levelStep
  simp only [shift_imageBarrier, shift_emit]
  split <;> rfl

theorem shift_layerStep (A env G v ty next r layer) :
    Mip.layerStep env G v ty next (shift A r) layer = shift A (Mip.layerStep env G v ty next r layer) := by
  unfold Mip.layerStep
  simp only [shift_ctx]
  rw [shift_setCtx, shift_imageBarrier]
  exact shift_foldl A _ (fun r l => shift_levelStep ..) _ _

theorem shift_mipmaps (A env G p out v ty r) :
    Mip.generateMipmaps env G p out v ty (shift A r) = shift A (Mip.generateMipmaps env G p out v ty r) := by
  unfold Mip.generateMipmaps Mip.generate
  exact shift_foldl A _ (fun r l => shift_layerStep ..) _ _

theorem shift_recordPass (A sepDS G w h p cached draw index r) :
    ((RPass.recordPass sepDS G w h p cached draw index (shift A r)).map (·.2)).getD (shift A r)
      = shift A (((RPass.recordPass sepDS G w h p cached draw index r).map (·.2)).getD r) := by
  unfold RPass.recordPass
  rw [shift_ctx]
  cases RPass.initialise sepDS G w h p index cached r.ctx with
  | none => rfl
  | some x => simp [shift, RPass.beginPass, RPass.endPass, Rec.emit]

/-- The callbacks of all passes of the library, and those of the user that work through the recording context, are blind. -/
theorem library_blind (sepDS : Bool) (G : GraphSt) (K : Settle.Objects) (d : Settle.Decl) : Blind (d.runs sepDS G K) := by
  refine blind_of_shift fun A i r => ?_
  show d.body sepDS G K i (shift A r) = shift A (d.body sepDS G K i r)
  unfold Settle.Decl.body
  cases d.work with
  | calls cs => exact shift_foldl A _ (fun r c => shift_perform ..) _ _
  | draws w h draw => exact shift_recordPass ..
  | imageCopy en size final => exact blind_getD (fun r => shift_copyPairs _ _ _ _ _ _ _ (Nat.le_refl _) r) r
  | imageBlit so ss dO ds f =>
    refine blind_getD (f := Xfer.imageBlit d.pass so ss dO ds f i) (fun r => ?_) r
    unfold Xfer.imageBlit
    simp only [shift_emit]
    split
    · split <;> rfl
    · rfl
  | bufferCopy o n =>
    refine blind_getD (f := Xfer.bufferCopy d.pass o n i) (fun r => ?_) r
    unfold Xfer.bufferCopy
    simp only [shift_emit, shift_bufferBarrier]
    split
    · split <;> rfl
    · rfl
  | bufferToImage o s =>
    refine blind_getD (f := Xfer.bufferToImage d.pass o s i) (fun r => ?_) r
    unfold Xfer.bufferToImage
    simp only [shift_emit]
    split
    · split <;> rfl
    · rfl
  | imageToBuffer o s =>
    refine blind_getD (f := Xfer.imageToBuffer d.pass o s i) (fun r => ?_) r
    unfold Xfer.imageToBuffer
    simp only [shift_emit]
    split
    · split <;> rfl
    · rfl
  | mipmaps en ty output =>
    simp only
    cases d.pass.images.head? with
    | none => rfl
    | some a =>
      simp only
      cases a.img.view i with
      | none => rfl
      | some v => exact shift_mipmaps ..

/-! ### Examples -/

/-- All passes enabled and resettable, the first index. -/
def env0 : Env := ⟨false, fun _ => true⟩
def fresh : St := start xG (fun _ _ => false) []
def recorded (passes : List RunPass) : Option St := step (fun _ => true) fresh (.record env0 (fun _ => 0) [] passes)

theorem h_blind {p : RunPass} (h : p = hRead ∨ p = hWrite) : Blind p := by
  refine blind_of_shift fun A i r => ?_
  rcases h with rfl | rfl
  · exact shift_emit ..
  · exact shift_emit ..

/-- The only image of the pass that samples is known, in the snapshot of a recording. -/
def sampledKnown (h : St) : Bool := (((h.snaps 1 0).images.getState xView.image xView.viewType xView.range).layout != Layout.undefined)

/-- The hypotheses of `rerecording_repeats_partial` are met: a pass writes an image, another one samples it; the second one is
recorded again, and gives a barrier and its work. -/
theorem example_repeats : ∃ h1 h3 cs, recorded [hWrite, hRead] = some h1
    ∧ step (fun _ => true) h1 (.reRecord env0 0 hRead) = some h3 ∧ h3.own 1 0 = some cs
    ∧ ∃ A B, h1.main = A ++ cs ++ B := by
  have hk : (recorded [hWrite, hRead]).map sampledKnown = some true := by decide +kernel
  cases e : recorded [hWrite, hRead] with
  | none => rw [e] at hk; cases hk
  | some h1 =>
    rw [e] at hk
    have hk : sampledKnown h1 = true := Option.some.inj hk
    obtain ⟨h3, cs, a, b, -, c⟩ := rerecording_repeats_partial (fun _ => true) (p := hRead) (mid := []) (h2 := h1) e rfl (by simp)
      (by decide) (fun q hq => h_blind (by
        simp only [List.mem_cons, List.not_mem_nil, or_false] at hq
        exact hq.symm)) (by simp) rfl (by decide) (by
          intro a ha _ _ v hv
          have ha : a ∈ [ImageAdder.sampled.attach 1 0 [xView]] := ha
          rw [List.mem_singleton] at ha
          subst ha
          have hv : some xView = some v := hv
          cases hv
          left
          intro hz
          unfold sampledKnown at hk
          rw [bne_iff_ne] at hk
          exact hk hz)
    exact ⟨h1, h3, cs, rfl, a, b, c⟩

/-- What is recorded again isn't nothing: the commands of the example. -/
theorem example_repeats_what :
    ((recorded [hWrite, hRead]).bind fun h1 => (step (fun _ => true) h1 (.reRecord env0 0 hRead)).bind fun h3 => h3.own 1 0).map List.length
      = some 2 := by decide +kernel

/-- Without the condition on the views the tracker did not know, it is not so: a pass samples an image nothing is known of,
before the pass that writes it. When the graph is recorded for the first time the barrier takes the image from UNDEFINED; when
the pass is then recorded again, the graph remembers the layout the second pass left. -/
theorem first_rerecording_differs :
    ((recorded [hRead, hWrite]).bind fun h1 => (step (fun _ => true) h1 (.reRecord env0 0 hRead)).bind fun h3 =>
      (h3.own 1 0).map fun cs => (cs.head?, h1.main.head?)).map (fun x => decide (x.1 = x.2)) = some false := by decide +kernel

/-- Before any recording of the graph there is no snapshot: the pass is recorded as if nothing was known. -/
theorem never_recorded (R : Nat → Bool) (G ini log) {env : Env} {i : Nat} {p : RunPass} {h : St}
    (e : step R (start G ini log) (.reRecord env i p) = some h) (hi : i < p.maxPassCount) :
    ∃ f, Run.recordInto env G p i ⟨⟨Ctx.new, []⟩, ini, log⟩ = some f ∧ h.own p.id i = some f.recd.cmds := by
  simp only [step, recordInto] at e
  split at e
  · cases e1 : Run.recordInto env G p i ⟨⟨Ctx.new, []⟩, ini, log⟩ with
    | none =>
      have e1' : Run.recordInto env (start G ini log).G p i ⟨⟨(start G ini log).snaps p.id i, []⟩, (start G ini log).initialised, (start G ini log).log⟩ = none := e1
      rw [e1'] at e
      cases e
    | some f =>
      have e1' : Run.recordInto env (start G ini log).G p i ⟨⟨(start G ini log).snaps p.id i, []⟩, (start G ini log).initialised, (start G ini log).log⟩ = some f := e1
      rw [e1'] at e
      injection e with e
      subst e
      exact ⟨f, rfl, by simp⟩
  · cases e

open RPass in
/-- The pass of the drawing example that blends over what the first one drew. -/
def blend : RunPass := RunPass.drawing false xG aBlend none [2]

/-- What the blending pass starts from when it is recorded again. -/
def blendRec (h : St) : Option Rec := prepare env0 xG blend 0 ⟨h.snaps 2 0, []⟩

def blendKnown (h : St) : Bool :=
  (((h.snaps 2 0).images.getState xView.image xView.viewType xView.range).layout != Layout.undefined)

open RPass in
/-- The hypotheses of `rerecording_draws_partial` are met: a pass draws, another one blends over it, a third one samples. -/
theorem example_draws : ∃ h1 h3 cs made, recorded (aPasses xG none) = some h1
    ∧ step (fun _ => true) h1 (.reRecord env0 0 (callsBack blend fun i r =>
        ((recordPass false h1.G 64 64 blend made [2] i r).map (·.2)).getD r)) = some h3
    ∧ h3.own 2 0 = some cs ∧ ∃ A B, h1.main = A ++ cs ++ B := by
  have hk : (recorded (aPasses xG none)).map blendKnown = some true := by decide +kernel
  cases e : recorded (aPasses xG none) with
  | none => rw [e] at hk; cases hk
  | some h1 =>
    rw [e] at hk
    have hk : blendKnown h1 = true := Option.some.inj hk
    have hS : ∀ a ∈ blend.images, ∀ v, a.img.view 0 = some v → Knows (h1.snaps 2 0).images v := by
      intro a ha v hv
      have ha : a ∈ [ImageAdder.inOutColour.attach 2 0 [xView]] := ha
      rw [List.mem_singleton] at ha
      subst ha
      have hv : some xView = some v := hv
      cases hv
      intro hz
      unfold blendKnown at hk
      rw [bne_iff_ne] at hk
      exact hk hz
    have hb : ∀ q ∈ aPasses xG none, Blind q := by
      intro q hq
      have draw : ∀ (p : RunPass) o ds, Blind (RunPass.drawing false xG p o ds) := fun p o ds =>
        blind_of_shift fun A i r => shift_recordPass A false xG 64 64 p o ds i r
      simp only [aPasses, List.mem_cons, List.not_mem_nil, or_false] at hq
      rcases hq with rfl | rfl | rfl
      · exact draw _ _ _
      · exact draw _ _ _
      · exact blind_of_shift fun A i r => rfl
    have hD : Declares false blend := by
      intro a ha
      have ha : a ∈ [ImageAdder.inOutColour.attach 2 0 [xView]] := ha
      rw [List.mem_singleton] at ha
      subst ha
      refine ⟨by decide, fun v hv => ?_⟩
      have hv : v ∈ [xView] := hv
      rw [List.mem_singleton] at hv
      subst hv
      exact ⟨xView.range, ⟨⟨rfl, rfl⟩, fun h => absurd h (by decide), fun _ => ⟨rfl, rfl⟩⟩, by decide⟩
    obtain ⟨h3, cs, a, b, -, c⟩ := rerecording_draws_partial (fun _ => true) (p := blend) (mid := []) (h2 := h1) e rfl (by simp)
      (by decide) hb (by simp [aPasses, blend]) rfl (by decide) hD
      (fun a ha _ _ v hv => Or.inl (hS a ha v hv)) (fun a ha _ v hv => Or.inl (hS a ha v hv))
      (w := 64) (ht := 64) (draw := [2]) (cached := none)
      (made := (blendRec h1).bind fun r => (recordPass false xG 64 64 blend none [2] 0 r).map (·.1))
      (fun r => rfl) (fun r hr => by
        have hr : blendRec h1 = some r := hr
        rw [hr]
        rfl)
    exact ⟨h1, h3, cs, _, rfl, a, b, c⟩

end Verif.Rerec
