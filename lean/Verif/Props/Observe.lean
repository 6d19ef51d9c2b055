import Verif.Spec.Observe
import Verif.Props.Frame
import Verif.Props.Implicit
/-
C66 (which bodies a recording calls), and the link between the recordings passes are entered with (`EntersAt`, used by
C16, C18, C19, C47) and `RunnableGraph::record` itself.
-/
namespace Verif.Run
open Verif.Rec Verif.Att Verif.Gpu

/-! ### What the body of a pass is given -/

theorem layouts_withBody (sepDS : Bool) (p : RunPass) (b : Nat → Rec → Rec) :
    RunPass.layouts sepDS { p with body := b } = p.layouts sepDS := by
  simp only [RunPass.layouts]

theorem gather_withBody (sepDS : Bool) (en : Nat → Bool) (b : Nat → Rec → Rec) :
    ∀ (ps : List RunPass) (k : Nat) (cur res : Images),
    gather sepDS en cur (withBody ps k b) res = gather sepDS en cur ps res := by
  intro ps
  induction ps with
  | nil => intro k cur res; rfl
  | cons p ps ih =>
    intro k cur res
    cases k with
    | zero => simp only [withBody, gather, layouts_withBody]
    | succ k =>
      simp only [withBody, gather]
      split
      · rfl
      · split
        · split
          · exact ih _ _ _
          · exact ih _ _ _
        · exact ih _ _ _

theorem nextState_withBody (en : Nat → Bool) (s : AccessState) (b : Nat → Rec → Rec) :
    ∀ (ps : List RunPass) (k : Nat), getNextState en s (withBody ps k b) = getNextState en s ps := by
  intro ps
  induction ps with
  | nil => intro k; rfl
  | cons p ps ih =>
    intro k
    cases k with
    | zero =>
      simp only [withBody, getNextState, List.find?_cons]
      cases en p.id <;> rfl
    | succ k =>
      have h := ih k
      simp only [withBody, getNextState, List.find?_cons] at h ⊢
      cases en p.id
      · exact h
      · rfl

theorem withBody_isEmpty (b : Nat → Rec → Rec) (ps : List RunPass) (k : Nat) :
    (withBody ps k b).isEmpty = ps.isEmpty := by
  cases ps <;> cases k <;> rfl

theorem announce_withBody (env : Env) (G : GraphSt) (p : RunPass) (ps : List RunPass) (k : Nat) (b : Nat → Rec → Rec)
    (c : Ctx) : announce env G p (withBody ps k b) c = announce env G p ps c := by
  simp only [announce, withBody_isEmpty, gather_withBody, nextState_withBody]

theorem announce_body (env : Env) (G : GraphSt) (p : RunPass) (ps : List RunPass) (b : Nat → Rec → Rec)
    (c : Ctx) : announce env G { p with body := b } ps c = announce env G p ps c := by
  simp only [announce, layouts_withBody]

theorem loop_bodyGets (env : Env) (G : GraphSt) (index : Nat → Nat) :
    ∀ (ps : List RunPass) (f : Frame) (k : Nat) (r : Rec), EntersAt env G index ps f k r →
    ∃ q, ps[k]? = some q ∧ ∀ b b' : Nat → Rec → Rec, b (index q.id) r = b' (index q.id) r →
      recordLoop env G index (withBody ps k b) f = recordLoop env G index (withBody ps k b') f := by
  intro ps
  induction ps with
  | nil => intro f k r h; exact absurd h (by simp [EntersAt])
  | cons p next ih =>
    intro f k r h
    cases k with
    | zero =>
      obtain ⟨hen, hp⟩ := h
      refine ⟨p, rfl, ?_⟩
      intro b b' hb
      have key : ∀ b : Nat → Rec → Rec, recordInto env G { p with body := b } (index p.id)
            { f with recd := { f.recd with ctx := announce env G p next f.recd.ctx } }
          = if index p.id < p.maxPassCount then
              some { (if (!f.initialised p.id (index p.id)) = true
                then Frame.initialise ⟨⟨announce env G p next f.recd.ctx, f.recd.cmds⟩, f.initialised, f.log⟩ p (index p.id)
                else ⟨⟨announce env G p next f.recd.ctx, f.recd.cmds⟩, f.initialised, f.log⟩) with
                recd := registerAll p (b (index p.id) r)
                log := (if (!f.initialised p.id (index p.id)) = true
                then Frame.initialise ⟨⟨announce env G p next f.recd.ctx, f.recd.cmds⟩, f.initialised, f.log⟩ p (index p.id)
                else ⟨⟨announce env G p next f.recd.ctx, f.recd.cmds⟩, f.initialised, f.log⟩).log ++ [.run p.id (index p.id)] }
            else none := by
        intro b
        simp only [recordInto, hen, if_true]
        split
        · have hr : (if (!f.initialised p.id (index p.id)) = true
              then Frame.initialise ⟨⟨announce env G p next f.recd.ctx, f.recd.cmds⟩, f.initialised, f.log⟩
                { p with body := b } (index p.id)
              else ⟨⟨announce env G p next f.recd.ctx, f.recd.cmds⟩, f.initialised, f.log⟩).recd
              = ⟨announce env G p next f.recd.ctx, f.recd.cmds⟩ := by
            split <;> rfl
          have hq : prepare env G { p with body := b } (index p.id) ⟨announce env G p next f.recd.ctx, f.recd.cmds⟩
              = some r := hp
          rw [hr, hq]
          rfl
        · rfl
      simp only [withBody, recordLoop, announce_body]
      rw [key b, key b', hb]
    | succ k =>
      obtain ⟨f', e, h'⟩ := h
      obtain ⟨q, hq, hall⟩ := ih f' k r h'
      refine ⟨q, hq, ?_⟩
      intro b b' hb
      simp only [withBody, recordLoop, announce_withBody]
      rw [e]
      exact hall b b' hb

theorem firstAnnounce_withBody (sepDS : Bool) (ps : List RunPass) (k : Nat) (b : Nat → Rec → Rec) (c : Ctx) :
    firstAnnounce sepDS (withBody ps k b) c = firstAnnounce sepDS ps c := by
  cases ps with
  | nil => rfl
  | cons p ps => cases k <;> simp only [withBody, firstAnnounce, layouts_withBody]

/-- C16, C18, C19, C47: the recording a pass is entered with, about which these properties speak, is what
`RunnableGraph::record` calls its body with. -/
theorem entered_is_given (env : Env) (G : GraphSt) (deps : List Ctx) (index : Nat → Nat) (passes : List RunPass)
    (ini : Nat → Nat → Bool) (log : List Event) (k : Nat) (r : Rec)
    (h : EntersAt env G index passes (frameStart env.sepDS deps passes ini log) k r) :
    ∃ q, BodyGets env G deps index passes ini log k q r := by
  obtain ⟨q, hq, hall⟩ := loop_bodyGets env G index passes _ k r h
  refine ⟨q, hq, ?_⟩
  intro b b' hb
  have := hall b b' hb
  simp only [record, firstAnnounce_withBody]
  simp only [frameStart] at this
  rw [this]

/-- The same for `Enters`. -/
theorem enters_at {env : Env} {G : GraphSt} {index : Nat → Nat} {q : RunPass} {r : Rec} :
    ∀ {ps : List RunPass} {f : Frame}, Enters env G index ps f q r →
      ∃ k, EntersAt env G index ps f k r ∧ ps[k]? = some q
  | [], _, h => absurd h (by simp [Enters])
  | p :: next, f, h => by
    rcases h with ⟨rfl, h1, h2⟩ | ⟨f', h1, h2⟩
    · exact ⟨0, ⟨h1, h2⟩, rfl⟩
    · obtain ⟨k, h3, h4⟩ := enters_at h2
      exact ⟨k + 1, ⟨f', h1, h3⟩, h4⟩

/-! ### C66 -/

theorem runs_append (a b : List Event) : runs (a ++ b) = runs a ++ runs b := by
  unfold runs; exact List.filterMap_append

theorem runs_recordInto (env : Env) (G : GraphSt) (p : RunPass) (index : Nat) (f f' : Frame)
    (h : recordInto env G p index f = some f') :
    runs f'.log = runs f.log ++ (if env.enabled p.id then [(p.id, index)] else [])
    ∧ (env.enabled p.id = true → ∃ r, prepare env G p index f.recd = some r) := by
  unfold recordInto at h
  split at h
  · rename_i hen
    split at h
    · simp only at h
      split at h
      · simp at h
      · rename_i r hr
        simp only [Option.some.injEq] at h
        subst h
        simp only
        have hlog : runs (if (!f.initialised p.id index) = true then f.initialise p index else f).log = runs f.log := by
          split
          · show runs (f.log ++ [.init p.id index]) = _
            rw [runs_append]; simp [runs]
          · rfl
        have hrec : (if (!f.initialised p.id index) = true then f.initialise p index else f).recd = f.recd := by
          split <;> rfl
        rw [runs_append, hlog, if_pos hen]
        rw [hrec] at hr
        exact ⟨by simp [runs], fun _ => ⟨r, hr⟩⟩
    · simp at h
  · rename_i hen
    simp only [Option.some.injEq] at h
    subst h
    simp [hen]

theorem loop_runs (env : Env) (G : GraphSt) (index : Nat → Nat) : ∀ (ps : List RunPass) (f f' : Frame),
    recordLoop env G index ps f = some f' →
    runs f'.log = runs f.log ++ (ps.filter (fun p => env.enabled p.id)).map (fun p => (p.id, index p.id))
    ∧ ∀ k q, ps[k]? = some q → env.enabled q.id = true → ∃ r, EntersAt env G index ps f k r := by
  intro ps
  induction ps with
  | nil =>
    intro f f' h
    simp only [recordLoop, Option.some.injEq] at h
    subst h
    exact ⟨by simp, fun k q h => by simp at h⟩
  | cons p next ih =>
    intro f f' h
    unfold recordLoop at h
    simp only at h
    split at h
    · simp at h
    · rename_i f1 e1
      have h1 := runs_recordInto env G p _ _ _ e1
      have h2 := ih f1 f' h
      refine ⟨?_, ?_⟩
      · rw [h2.1, h1.1, List.filter_cons]
        cases env.enabled p.id <;> simp
      · intro k q hq hen
        cases k with
        | zero =>
          simp only [List.getElem?_cons_zero, Option.some.injEq] at hq
          subst hq
          obtain ⟨r, hr⟩ := h1.2 hen
          exact ⟨r, hen, hr⟩
        | succ k =>
          obtain ⟨r, hr⟩ := h2.2 k q hq hen
          exact ⟨r, f1, e1, hr⟩

/-- C66. A recording calls the body of every enabled pass exactly once, with that pass's current index, in the order of
the compiled graph, and the body of no disabled pass. -/
theorem record_runs_enabled (env : Env) (G : GraphSt) (deps : List Ctx) (index : Nat → Nat) (passes : List RunPass)
    (ini : Nat → Nat → Bool) (log : List Event) (G' : GraphSt) (f : Frame)
    (h : record env G deps index passes ini log = some (G', f)) :
    runs f.log = runs log ++ (passes.filter (fun p => env.enabled p.id)).map (fun p => (p.id, index p.id))
    ∧ ∀ k q, passes[k]? = some q → env.enabled q.id = true →
        ∃ r, EntersAt env G index passes (frameStart env.sepDS deps passes ini log) k r
          ∧ BodyGets env G deps index passes ini log k q r := by
  unfold record at h
  simp only at h
  split at h
  · simp at h
  · rename_i f1 e1
    simp only [Option.some.injEq, Prod.mk.injEq] at h
    obtain ⟨-, rfl⟩ := h
    have := loop_runs env G index passes _ _ e1
    refine ⟨this.1, ?_⟩
    intro k q hq hen
    obtain ⟨r, hr⟩ := this.2 k q hq hen
    obtain ⟨q', h1, h2⟩ := entered_is_given env G deps index passes ini log k r hr
    rw [hq] at h1
    cases h1
    exact ⟨r, hr, hq, h2⟩

example : ((record ⟨false, fun i => i == 2⟩ xG [] (fun _ => 0) xPasses (fun _ _ => false) []).map
    fun x => runs x.2.log) = some [(2, 0)] := by decide

end Verif.Run
