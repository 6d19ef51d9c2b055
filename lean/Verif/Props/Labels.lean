import Verif.Spec.Labels
import Verif.Props.Bracket
import Verif.Props.Timer
/-
C96: timestamps and debug blocks around what passes record.
-/
namespace Verif.Lab
open Verif.Rec Verif.Run Verif.Timer Verif.Brk

/-- What one pass adds. -/
def part (env : Env) (p : RunPass) (q : Nat) (cs : List Cmd) : List Mark := if env.enabled p.id then block p.id q cs else []

theorem recordInto_spec {env : Env} {G : GraphSt} {p : RunPass} {d : Option (List Nat)} (h : Body env.sepDS G p d)
    {index : Nat} {f f' : Full} (e : recordInto env G p index f = some f') :
    Run.recordInto env G p index f.frame = some f'.frame ∧
    ∃ cs is, Instances cs is ∧ f'.frame.recd.cmds = f.frame.recd.cmds ++ cs ∧ (env.enabled p.id = false → cs = []) ∧
      f'.marks = f.marks ++ part env p (f.timers p.id).back.offset cs ∧
      f'.timers = fun i => if i = p.id ∧ env.enabled p.id = true then (exec (f.timers i) [.beginPass, .endPass]).1
        else f.timers i := by
  unfold recordInto at e
  cases hr : Run.recordInto env G p index f.frame with
  | none => rw [hr] at e; cases e
  | some fr =>
    rw [hr] at e
    obtain ⟨cs, hc, hi⟩ := ext_recordInto h hr
    cases he : env.enabled p.id with
    | true =>
      simp only [he, if_true, Option.some.injEq] at e
      subst e
      refine ⟨rfl, cs, _, hi, hc, (fun h => by cases h), ?_, ?_⟩
      · simp [part, block, he, since, hc, step]
      · funext i
        by_cases hip : i = p.id
        · subst hip; simp [exec]
        · simp [hip]
    | false =>
      simp only [he] at e
      cases e
      refine ⟨rfl, [], [], .nil, ?_, fun _ => rfl, by simp [part, he], by simp⟩
      · unfold Run.recordInto at hr
        rw [he] at hr
        cases hr
        have : ∀ (l : List (View × Action)) (r : Rec),
            (l.foldl (fun r va => r.register ⟨p.id, va.1, va.2⟩) r).cmds = r.cmds := by
          intro l
          induction l with
          | nil => intro r; rfl
          | cons a l ih => intro r; rw [List.foldl_cons, ih]; rfl
        simpa [registerAll] using this p.implicitActions f.frame.recd

/-- The blocks of the passes, given the query each one writes and its commands. -/
def blocks (env : Env) (passes : List RunPass) (query : Nat → Nat) (parts : Nat → List Cmd) : List Mark :=
  (passes.filter fun p => env.enabled p.id).flatMap fun p => block p.id (query p.id) (parts p.id)

theorem recordLoop_spec {env : Env} {G : GraphSt} {index : Nat → Nat} {D : RunPass → Option (List Nat)} :
    ∀ (passes : List RunPass) (f f' : Full), (∀ p ∈ passes, Body env.sepDS G p (D p)) → (passes.map (·.id)).Nodup →
    recordLoop env G index passes f = some f' →
    Run.recordLoop env G index passes f.frame = some f'.frame ∧
    ∃ parts : Nat → List Cmd, (∀ p ∈ passes, ∃ is, Instances (parts p.id) is) ∧
      f'.frame.recd.cmds = f.frame.recd.cmds ++ (passes.filter fun p => env.enabled p.id).flatMap (fun p => parts p.id) ∧
      f'.marks = f.marks ++ blocks env passes (fun i => (f.timers i).back.offset) parts ∧
      f'.timers = fun i => if i ∈ passes.map (·.id) ∧ env.enabled i = true then (exec (f.timers i) [.beginPass, .endPass]).1
        else f.timers i
  | [], f, f', _, _, e => by
    cases e
    exact ⟨rfl, fun _ => [], by simp, by simp, by simp [blocks], by simp⟩
  | p :: next, f, f', hb, hn, e => by
    unfold recordLoop at e
    simp only at e
    generalize hfr : ({ f.frame with recd := { f.frame.recd with ctx := announce env G p next f.frame.recd.ctx } } : Frame) = fr at e
    cases h1 : recordInto env G p (index p.id) { f with frame := fr } with
    | none => rw [h1] at e; cases e
    | some f1 =>
      rw [h1] at e
      obtain ⟨r1, cs, is, hi, c1, z1, m1, t1⟩ := recordInto_spec (hb p (List.mem_cons_self ..)) h1
      have hnd := List.nodup_cons.1 hn
      obtain ⟨r2, parts, i2, c2, m2, t2⟩ := recordLoop_spec next f1 f' (fun q hq => hb q (List.mem_cons_of_mem _ hq)) hnd.2 e
      have hc : fr.recd.cmds = f.frame.recd.cmds := by rw [← hfr]
      have hne : ∀ q ∈ next, q.id ≠ p.id := fun q hq hx => hnd.1 (List.mem_map.2 ⟨q, hq, hx⟩)
      refine ⟨?_, fun i => if i = p.id then cs else parts i, ?_, ?_, ?_, ?_⟩
      · unfold Run.recordLoop
        simp only [hfr]
        change Run.recordInto env G p (index p.id) fr = _ at r1
        rw [r1]
        exact r2
      · intro q hq
        rcases List.mem_cons.1 hq with rfl | hq
        · exact ⟨is, by simpa using hi⟩
        · obtain ⟨k, hk⟩ := i2 q hq
          exact ⟨k, by simpa [hne q hq] using hk⟩
      · rw [c2, c1]
        have : (next.filter fun p => env.enabled p.id).flatMap (fun q => if q.id = p.id then cs else parts q.id) =
            (next.filter fun p => env.enabled p.id).flatMap (fun q => parts q.id) := by
          rw [List.flatMap_def, List.flatMap_def]
          congr 1
          apply List.map_congr_left
          intro q hq
          rw [if_neg (hne q (List.mem_filter.1 hq).1)]
        change fr.recd.cmds ++ cs ++ _ = _
        rw [hc]
        cases he : env.enabled p.id with
        | true => simp [he, this]
        | false => rw [z1 he] at this ⊢; simp [he, this]
      · rw [m2, m1, t1]
        have : blocks env next (fun i => (if i = p.id ∧ env.enabled p.id = true then (exec (f.timers i) [.beginPass, .endPass]).1
            else f.timers i).back.offset) parts =
            (next.filter fun p => env.enabled p.id).flatMap (fun q => block q.id (f.timers q.id).back.offset
              (if q.id = p.id then cs else parts q.id)) := by
          unfold blocks
          rw [List.flatMap_def, List.flatMap_def]
          congr 1
          apply List.map_congr_left
          intro q hq
          have := hne q (List.mem_filter.1 hq).1
          simp [this]
        change f.marks ++ part env p (f.timers p.id).back.offset cs ++ blocks env next (fun i => (if i = p.id ∧ env.enabled p.id = true
          then (exec (f.timers i) [.beginPass, .endPass]).1 else f.timers i).back.offset) parts = _
        rw [this]
        cases he : env.enabled p.id with
        | true => simp [blocks, part, he]
        | false => simp [blocks, part, he]
      · rw [t2, t1]
        funext i
        change (if _ then (exec (if i = p.id ∧ _ then (exec (f.timers i) _).1 else f.timers i) _).1 else
          (if i = p.id ∧ _ then (exec (f.timers i) _).1 else f.timers i)) = _
        by_cases hip : i = p.id
        · subst hip
          have hx : p.id ∉ next.map (·.id) := hnd.1
          rw [if_neg (fun h => hx h.1)]
          cases he : env.enabled p.id <;> simp [he]
        · simp [hip]

/-- The part of the loop that succeeds: the complete recording goes as far as the plain one. -/
theorem recordLoop_some {env : Env} {G : GraphSt} {index : Nat → Nat} : ∀ (passes : List RunPass) (f : Full) (fr : Frame),
    Run.recordLoop env G index passes f.frame = some fr → ∃ f', recordLoop env G index passes f = some f'
  | [], f, _, _ => ⟨f, rfl⟩
  | p :: next, f, fr, e => by
    unfold Run.recordLoop at e
    unfold recordLoop
    simp only at e ⊢
    generalize ({ f.frame with recd := { f.frame.recd with ctx := announce env G p next f.frame.recd.ctx } } : Frame) = g at e ⊢
    cases h1 : Run.recordInto env G p (index p.id) g with
    | none => rw [h1] at e; cases e
    | some f1 =>
      rw [h1] at e
      have : ∃ F, recordInto env G p (index p.id) { f with frame := g } = some F ∧ F.frame = f1 := by
        unfold recordInto
        simp only [h1]
        split
        · exact ⟨_, rfl, rfl⟩
        · exact ⟨_, rfl, rfl⟩
      obtain ⟨F, hF, rfl⟩ := this
      rw [hF]
      exact recordLoop_some next F fr e

/-- C96: timestamps and debug blocks change nothing to the rest, and a command buffer is: the first timestamp of the
graph, for each enabled pass, in order, a debug block named after it that holds its two timestamps and, between them, all
that the pass records (barriers, clears, pending substitutes and what its callbacks record) and nothing else, the second
timestamp of the graph. -/
theorem command_buffer_anatomy {env : Env} {G : GraphSt} {deps : List Ctx} {index : Nat → Nat} {passes : List RunPass}
    {ini : Nat → Nat → Bool} {log : List Run.Event} {graph : Timer} {timers : Nat → Timer} {draws : RunPass → Option (List Nat)}
    (hb : ∀ p ∈ passes, Body env.sepDS G p (draws p)) (hn : (passes.map (·.id)).Nodup) :
    ((∃ R, record env G deps index passes ini log graph timers = some R) ↔
      ∃ x, Run.record env G deps index passes ini log = some x) ∧
    ∀ R, record env G deps index passes ini log graph timers = some R →
      Run.record env G deps index passes ini log = some ({ G with final := R.full.frame.recd.ctx }, R.full.frame) ∧
      commands R.full.marks = R.full.frame.recd.cmds ∧
      ∃ parts : Nat → List Cmd,
        R.full.frame.recd.cmds = (passes.filter fun p => env.enabled p.id).flatMap (fun p => parts p.id) ∧
        (∀ p ∈ passes, ∃ is, Instances (parts p.id) is) ∧
        R.full.marks = [.stamp (.reset graph.back.offset), .stamp (.write graph.back.offset)] ++
          ((passes.filter fun p => env.enabled p.id).flatMap fun p => block p.id (timers p.id).back.offset (parts p.id)) ++
          [.stamp (.write (graph.back.offset + 1))] ∧
        R.timer = (exec graph [.beginPass, .endPass]).1 ∧
        R.full.timers = fun i => if i ∈ passes.map (·.id) ∧ env.enabled i = true then (exec (timers i) [.beginPass, .endPass]).1
          else timers i := by
  constructor
  · constructor
    · rintro ⟨R, h⟩
      unfold record at h
      simp only at h
      split at h
      · cases h
      · rename_i f hf
        obtain ⟨hr, _⟩ := recordLoop_spec passes _ _ hb hn hf
        refine ⟨({ G with final := f.frame.recd.ctx }, f.frame), ?_⟩
        unfold Run.record
        simp only
        change Run.recordLoop env G index passes ⟨⟨_, []⟩, ini, log⟩ = _ at hr
        rw [hr]
    · rintro ⟨x, h⟩
      unfold Run.record at h
      simp only at h
      split at h
      · cases h
      · rename_i f hf
        obtain ⟨F, hF⟩ := recordLoop_some passes
          ⟨⟨⟨firstAnnounce env.sepDS passes (startCtx deps), []⟩, ini, log⟩, timers, (step graph .beginPass).2.map .stamp⟩ f hf
        unfold record
        simp only
        rw [hF]
        exact ⟨_, rfl⟩
  · intro R h
    unfold record at h
    simp only at h
    split at h
    · cases h
    · rename_i f hf
      cases h
      obtain ⟨hr, parts, hi, hc, hm, ht⟩ := recordLoop_spec passes _ _ hb hn hf
      have hc' : f.frame.recd.cmds = (passes.filter fun p => env.enabled p.id).flatMap (fun p => parts p.id) := by
        rw [hc]; simp
      have hm' : f.marks ++ (step (step graph .beginPass).1 .endPass).2.map .stamp =
          [.stamp (.reset graph.back.offset), .stamp (.write graph.back.offset)] ++
          ((passes.filter fun p => env.enabled p.id).flatMap fun p => block p.id (timers p.id).back.offset (parts p.id)) ++
          [.stamp (.write (graph.back.offset + 1))] := by
        rw [hm]; simp [step, blocks]
      refine ⟨?_, ?_, parts, hc', hi, hm', rfl, ht⟩
      · unfold Run.record
        simp only
        change Run.recordLoop env G index passes ⟨⟨_, []⟩, ini, log⟩ = _ at hr
        rw [hr]
      · show commands (f.marks ++ (step (step graph .beginPass).1 .endPass).2.map .stamp) = f.frame.recd.cmds
        rw [hm', hc']
        have hb : ∀ (l : List RunPass), commands (l.flatMap fun p => block p.id (timers p.id).back.offset (parts p.id)) =
            l.flatMap (fun p => parts p.id) := by
          intro l
          induction l with
          | nil => rfl
          | cons p l ih =>
            have hblk : ∀ a q (cs : List Cmd), commands (block a q cs) = cs := by
              intro a q cs
              simp [commands, block, List.filterMap_append, List.filterMap_map, Function.comp_def]
            rw [List.flatMap_cons, List.flatMap_cons, ← ih]
            unfold commands
            rw [List.filterMap_append]
            exact congrArg (· ++ _) (hblk _ _ _)
        have happ : ∀ a b, commands (a ++ b) = commands a ++ commands b := fun a b => by simp [commands]
        rw [happ, happ, hb]
        simp [commands]

/-! ## Validity -/

theorem all_append (s : Scan) (a b : List Mark) : s.all (a ++ b) = (s.all a).bind (fun s => s.all b) := by
  induction a generalizing s with
  | nil => rfl
  | cons m a ih =>
    have e : ∀ (ms : List Mark), s.all (m :: ms) = match s.step m with | none => none | some s => s.all ms := fun ms => by
      conv => lhs; unfold Scan.all
      rfl
    rw [List.cons_append, e, e]
    cases s.step m with
    | none => rfl
    | some s => exact ih s

theorem inside_cmds (inner : List Cmd) (hi : ∀ c ∈ inner, Inside c = true) (s : Scan) : s.all (inner.map .cmd) = some s := by
  induction inner with
  | nil => rfl
  | cons c cs ih =>
    have hc := hi c (List.mem_cons_self ..)
    have : s.step (.cmd c) = some s := by
      cases c <;> simp_all [Inside, Scan.step, Begins, Ends]
    rw [List.map_cons]
    unfold Scan.all
    rw [this]
    exact ih fun c hc => hi c (List.mem_cons_of_mem _ hc)

theorem instances_scan {cs : List Cmd} {is : List (List Cmd)} (h : Instances cs is) (s : Scan) (ho : s.inside = false) :
    s.all (cs.map .cmd) = some s := by
  induction h with
  | nil => rfl
  | outside c cs is hb he _ ih =>
    rw [List.map_cons]
    unfold Scan.all
    have : s.step (.cmd c) = some s := by simp [Scan.step, hb, he]
    rw [this]
    exact ih
  | instance' atts w h l inner cs is hi _ ih =>
    rw [List.map_cons]
    unfold Scan.all
    have : s.step (.cmd (.beginPass atts w h l)) = some { s with inside := true } := by simp [Scan.step, Begins, ho]
    rw [this]
    simp only
    rw [List.map_append, all_append, inside_cmds inner hi]
    simp only [Option.bind_some, List.map_cons]
    unfold Scan.all
    have : ({ s with inside := true } : Scan).step (.cmd (.endPass atts)) = some s := by
      simp [Scan.step, Begins, Ends]
      cases s; simp_all
    rw [this]
    exact ih

/-- A block leaves things as they were, if its queries are not pending. -/
theorem block_scan {cs : List Cmd} {is : List (List Cmd)} (h : Instances cs is) (p q : Nat) (s : Scan) (ho : s.inside = false)
    (h0 : s.ready q = false) (h1 : s.ready (q + 1) = false) : s.all (block p q cs) = some s := by
  unfold block
  rw [all_append, all_append]
  have a1 : s.all [.label p, .stamp (.reset q), .stamp (.write q)] =
      some ⟨p :: s.blocks, false, fun k => if k = q + 1 then true else s.ready k⟩ := by
    simp only [Scan.all, Scan.step, ho, if_false, Bool.false_eq_true]
    simp only [true_or, if_true]
    congr 2
    funext k
    by_cases hk : k = q
    · subst hk; simp [h0]
    · simp [hk]
  rw [a1]
  simp only [Option.bind_some]
  rw [instances_scan h _ rfl]
  simp only [Option.bind_some, Scan.all, Scan.step, if_true]
  congr 1
  cases s with
  | mk b i r =>
    simp only at ho h1
    subst ho
    congr 1
    funext k
    by_cases hk : k = q + 1
    · subst hk; simp [h1]
    · simp [hk]

/-- The timer uses queries from `b` to `b + 3`. -/
def Owns (b : Nat) (t : Timer) : Prop := ∀ q, q = t.front ∨ q = t.back → b ≤ q.offset ∧ q.offset + 2 ≤ b + 4

theorem owns_exec {b : Nat} : ∀ (os : List Op) {t : Timer}, Owns b t → Owns b (exec t os).1
  | [], _, h => h
  | o :: os, t, h => owns_exec os (step_offsets (o := o) h).1

theorem owns_made {n i : Nat} {t : Timer} (hn : (n + 1) * 4 < 2 ^ 32) (h : (graphTimers n)[i]? = some t) : Owns (4 * i) t := by
  obtain ⟨_, rfl⟩ := makeAll_get (by omega) h
  rintro q (rfl | rfl) <;> simp

/-- C96: after any calls to the timers of the graph (earlier recordings, re-recordings, reads), whatever passes are
enabled: debug blocks are balanced, no query is reset inside a render pass instance, and each timestamp is written to a
query that was reset just before in this command buffer, and once. -/
theorem command_buffer_valid {env : Env} {G : GraphSt} {deps : List Ctx} {index : Nat → Nat} {passes : List RunPass}
    {ini : Nat → Nat → Bool} {log : List Run.Event} {graph : Timer} {timers : Nat → Timer} {draws : RunPass → Option (List Nat)}
    (hb : ∀ p ∈ passes, Body env.sepDS G p (draws p)) (hn : (passes.map (·.id)).Nodup)
    (hl : (passes.length + 1) * 4 < 2 ^ 32)
    (hg : ∃ t calls, (graphTimers passes.length)[0]? = some t ∧ graph = (exec t calls).1)
    (hp : ∀ (i : Nat) (p : RunPass), passes[i]? = some p →
      ∃ t calls, (graphTimers passes.length)[i + 1]? = some t ∧ timers p.id = (exec t calls).1)
    {R : Recorded} (e : record env G deps index passes ini log graph timers = some R) : Valid R.full.marks := by
  obtain ⟨_, _, parts, _, hi, hm, _⟩ := (command_buffer_anatomy hb hn).2 R e
  have og : graph.back.offset + 2 ≤ 4 := by
    obtain ⟨t, calls, ht, rfl⟩ := hg
    have := owns_exec calls (owns_made hl ht) _ (Or.inr rfl)
    omega
  have op : ∀ p ∈ passes, 4 ≤ (timers p.id).back.offset := by
    intro p hx
    obtain ⟨i, hi, rfl⟩ := List.getElem_of_mem hx
    obtain ⟨t, calls, ht, he⟩ := hp i _ (List.getElem?_eq_getElem hi)
    have := owns_exec calls (owns_made hl ht) _ (Or.inr rfl)
    rw [he]
    omega
  generalize graph.back.offset = g at hm og
  have hall : ∀ (l : List RunPass), (∀ p ∈ l, p ∈ passes) → ∀ s : Scan, s.inside = false → (∀ q, 4 ≤ q → s.ready q = false) →
      s.all (l.flatMap fun p => block p.id (timers p.id).back.offset (parts p.id)) = some s := by
    intro l
    induction l with
    | nil => intro _ s _ _; rfl
    | cons p l ih =>
      intro hs s ho hr
      rw [List.flatMap_cons, all_append]
      have hpm := hs p (List.mem_cons_self ..)
      obtain ⟨is, hi⟩ := hi p hpm
      have := op p hpm
      rw [block_scan hi _ _ s ho (hr _ (by omega)) (hr _ (by omega))]
      exact ih (fun q hq => hs q (List.mem_cons_of_mem _ hq)) s ho hr
  have h1 : Scan.all {} [.stamp (.reset g), .stamp (.write g)] =
      some ⟨[], false, fun k => if k = g + 1 then true else false⟩ := by
    simp only [Scan.all, Scan.step, Bool.false_eq_true, if_false]
    simp only [true_or, if_true]
    congr 2
    funext k
    by_cases hk : k = g
    · subst hk; simp
    · by_cases hk1 : k = g + 1
      · subst hk1; simp
      · simp [hk, hk1]
  refine ⟨⟨[], false, fun _ => false⟩, ?_, rfl, rfl, fun _ => rfl⟩
  rw [hm, all_append, all_append, h1]
  simp only [Option.bind_some]
  rw [hall _ (fun p hp => (List.mem_filter.1 hp).1) _ rfl (fun q hq => by
    have : q ≠ g + 1 := by omega
    simp [this])]
  simp only [Option.bind_some, Scan.all, Scan.step, if_true]
  congr 2
  funext k
  by_cases hk : k = g + 1
  · simp [hk]
  · simp [hk]

/-- Two drawing passes and a third that samples, their second recording: the graph's timer and those of the passes use their first pairs of
queries again. -/
theorem example_buffer : ∃ R, record ⟨false, fun _ => true⟩ Run.xG [] (fun _ => 0) (RPass.aPasses Run.xG none) (fun _ _ => false) []
      (exec ⟨{ offset := 0 }, { offset := 2 }⟩ [.beginPass, .endPass, .notify]).1
      (fun i => (exec ⟨{ offset := 4 * i }, { offset := 4 * i + 2 }⟩ [.beginPass, .endPass, .notify]).1) = some R ∧
    Valid R.full.marks ∧ R.full.marks.length = 24 := by
  have hs := (command_buffer_anatomy (env := ⟨false, fun _ => true⟩) (deps := []) (index := fun _ => 0)
    (ini := fun _ _ => false) (log := []) (draws := exampleDraws)
    (graph := (exec ⟨{ offset := 0 }, { offset := 2 }⟩ [.beginPass, .endPass, .notify]).1)
    (timers := fun i => (exec ⟨{ offset := 4 * i }, { offset := 4 * i + 2 }⟩ [.beginPass, .endPass, .notify]).1)
    example_bodies (by decide))
  have hx : (Run.record ⟨false, fun _ => true⟩ Run.xG [] (fun _ => 0) (RPass.aPasses Run.xG none) (fun _ _ => false) []).isSome =
      true := by decide +kernel
  obtain ⟨R, e⟩ := hs.1.2 (Option.isSome_iff_exists.1 hx)
  refine ⟨R, e, ?_, ?_⟩
  · refine command_buffer_valid (draws := exampleDraws) example_bodies (by decide) (by decide)
      ⟨_, _, rfl, rfl⟩ ?_ e
    intro i p h
    have hl := (List.getElem?_eq_some_iff.1 h).1
    have hl2 : (RPass.aPasses Run.xG none).length = 3 := by decide
    obtain rfl | rfl | rfl : i = 0 ∨ i = 1 ∨ i = 2 := by omega
    · cases h; exact ⟨_, _, rfl, rfl⟩
    · cases h; exact ⟨_, _, rfl, rfl⟩
    · cases h; exact ⟨_, _, rfl, rfl⟩
  · have h : (record ⟨false, fun _ => true⟩ Run.xG [] (fun _ => 0) (RPass.aPasses Run.xG none) (fun _ _ => false) []
      (exec ⟨{ offset := 0 }, { offset := 2 }⟩ [.beginPass, .endPass, .notify]).1
      (fun i => (exec ⟨{ offset := 4 * i }, { offset := 4 * i + 2 }⟩ [.beginPass, .endPass, .notify]).1)).map
        (fun R => R.full.marks.length) = some 24 := by decide +kernel
    rw [e] at h
    exact Option.some.inj h

end Verif.Lab
