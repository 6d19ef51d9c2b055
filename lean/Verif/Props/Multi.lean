import Verif.Spec.Multi
import Verif.Props.History
import Verif.Spec.Mixed
import Verif.Props.Flow
/-
C94: several graphs can share images.
-/
namespace Verif.Multi
open Verif.Rec Verif.Run Verif.Att Verif.Gpu

/-- What is asked of the runs: tidy views, passes of the library's kinds, render pass objects made for them and that still fit
(as C69). -/
def Fine (sepDS : Bool) (fmt : Nat → Nat) (V : View → Prop) (a : Ran) : Prop :=
  Run.Ordinary sepDS fmt V (a.before.st a.job.graph) a.job.enabled a.job.index a.job.passes
    (frameStart sepDS (a.before.finals a.job.deps) a.job.passes (a.before.initialised a.job.graph) (a.before.log a.job.graph)) a.job.cached
  ∧ Lib.EntersWell sepDS (a.before.st a.job.graph) a.job.enabled a.job.index a.job.passes
    (frameStart sepDS (a.before.finals a.job.deps) a.job.passes (a.before.initialised a.job.graph) (a.before.log a.job.graph)) a.job.cached

variable {sepDS : Bool} {fmt : Nat → Nat} {V : View → Prop} {g0 : Layouts}

/-! ### Lemmas -/

theorem record_eq {W W' : World} {x : Job} {f : Frame} (e : W.record sepDS x = some (W', f)) :
    ∃ G', Run.record ⟨sepDS, x.enabled⟩ (W.st x.graph) (W.finals x.deps) x.index x.passes (W.initialised x.graph) (W.log x.graph)
      = some (G', f) ∧ G'.final = f.recd.ctx ∧ G'.inputs = (W.st x.graph).inputs ∧ W'.st = fun n => if n = x.graph then G' else W.st n := by
  unfold World.record at e
  obtain ⟨⟨G', f'⟩, e1, e2⟩ := Option.map_eq_some_iff.1 e
  simp only [Prod.mk.injEq] at e2
  obtain ⟨rfl, rfl⟩ := e2
  refine ⟨G', e1, ?_⟩
  unfold Run.record at e1
  simp only at e1
  split at e1
  · simp at e1
  · simp only [Option.some.injEq, Prod.mk.injEq] at e1
    obtain ⟨rfl, rfl⟩ := e1
    exact ⟨rfl, rfl, rfl⟩

/-- At the end of a frame the GPU is as tracked, and what isn't tracked didn't move. -/
theorem frame_mirrors {passes : List RunPass} {G : GraphSt} (hT : TidyViews sepDS fmt V passes) (en : Nat → Bool) (index : Nat → Nat)
    (deps : List Ctx) (hH : Honest fmt V g0 (startCtx deps) G) (ini : Nat → Nat → Bool) (log : List Event)
    (hB : BodiesKeep sepDS fmt V passes g0 G en index passes (frameStart sepDS deps passes ini log))
    {G' : GraphSt} {f : Frame} (e : Run.record ⟨sepDS, en⟩ G deps index passes ini log = some (G', f)) :
    Mirrors fmt g0 f.recd.ctx.images (execAll g0 f.recd.cmds) := by
  unfold Run.record at e
  simp only at e
  split at e
  · simp at e
  · rename_i f1 e1
    simp only [Option.some.injEq, Prod.mk.injEq] at e
    obtain ⟨rfl, rfl⟩ := e
    have hk := firstAnnounce_keeps sepDS passes (startCtx deps)
    exact ((loop_spec hT en index hH.inputs hH.final passes (fun _ h => h)
      (frameStart sepDS deps passes ini log) (inv_start deps hH _ hk.1 hk.2) hB).1 f1 e1).good.mirrors

theorem start_images : ∀ (ds : List Ctx) (c : Ctx) (i : Nat),
    (ds.foldl Ctx.addStates c).images i = c.images i ∨ c.images i = none ∧ ∃ d ∈ ds, (ds.foldl Ctx.addStates c).images i = d.images i := by
  intro ds
  induction ds with
  | nil => intro c i; exact Or.inl rfl
  | cons d ds ih =>
    intro c i
    have h0 : (c.addStates d).images i = c.images i ∨ c.images i = none ∧ (c.addStates d).images i = d.images i := by
      show (c.images.addStates d.images) i = _ ∨ _ ∧ (c.images.addStates d.images) i = _
      unfold LayoutMap.addStates
      cases h : c.images i with
      | some x => exact Or.inl rfl
      | none => exact Or.inr ⟨rfl, rfl⟩
    rw [List.foldl_cons]
    rcases ih (c.addStates d) i with h | ⟨h, x, hx, e⟩
    · rw [h]
      rcases h0 with h0 | ⟨h0, h1⟩
      · exact Or.inl h0
      · exact Or.inr ⟨h0, d, by simp, h1⟩
    · rcases h0 with h0 | ⟨h0, h1⟩
      · exact Or.inr ⟨h0 ▸ h, x, by simp [hx], e⟩
      · exact Or.inr ⟨h0, x, by simp [hx], e⟩

theorem start_whole {ds : List Ctx} {v : View} (h : ∀ d ∈ ds, Whole d.images v) : Whole (startCtx ds).images v := by
  have key : ∀ m : LayoutMap, m v.image.id = (startCtx ds).images v.image.id → Whole m v → Whole (startCtx ds).images v := by
    intro m e
    unfold Whole LayoutMap.at
    rw [e]
    exact id
  rcases start_images ds Ctx.new v.image.id with e | ⟨-, d, hd, e⟩
  · exact key LayoutMap.empty e.symm (Or.inl fun _ _ _ => rfl)
  · exact key d.images e.symm (h d hd)

/-- What holds along a session. -/
structure SInv (fmt : Nat → Nat) (V : View → Prop) (g0 : Layouts) (W0 : World) (h : List Ran) (W : World) : Prop where
  valid : StreamValid g0 (stream h)
  true' : ∀ i a l m, HasAspect (fmt i) a → execAll g0 (stream h) i a l m
    = match lastKnown h i l m with | some s => s.layout | none => g0 i a l m
  whole : ∀ n v, V v → Whole (W.st n).final.images v
  inputs : ∀ n, (W.st n).inputs = (W0.st n).inputs

theorem honest_of {W0 W : World} {h : List Ran} (hI : SInv fmt V g0 W0 h W) (hin : ∀ n v, V v → Whole (W0.st n).inputs v) {x : Job}
    (hi : Informed g0 h W x) : Honest fmt V (execAll g0 (stream h)) (startCtx (W.finals x.deps)) (W.st x.graph) := by
  refine ⟨?_, ?_, ?_, hI.whole x.graph⟩
  · intro i a l m s ha hk
    have h1 := hI.true' i a l m ha
    have h2 := hi i l m s hk
    cases hl : lastKnown h i l m with
    | some t =>
      rw [hl] at h1 h2
      exact h1.trans h2.symm
    | none =>
      rw [hl] at h1 h2
      exact h1.trans (h2 a)
  · intro v hv
    refine start_whole fun d hd => ?_
    obtain ⟨n, -, rfl⟩ := List.mem_map.1 hd
    exact hI.whole n v hv
  · intro v hv
    rw [hI.inputs]
    exact hin _ v hv

theorem session_inv {W0 : World} (hin : ∀ n v, V v → Whole (W0.st n).inputs v)
    (hfin : ∀ n v, V v → Whole (W0.st n).final.images v) {h : List Ran} {W : World} (hs : Session sepDS W0 h W)
    (hf : ∀ a ∈ h, Fine sepDS fmt V a) (hi : AllInformed g0 h) : SInv fmt V g0 W0 h W := by
  induction hs with
  | start => exact ⟨trivial, fun _ _ _ _ _ => rfl, hfin, fun _ => rfl⟩
  | @run h W W' x f s e ih =>
    have I := ih (fun a ha => hf a (by simp [ha])) hi.2
    obtain ⟨hO, hW⟩ := hf ⟨x, W, f⟩ (by simp)
    have hH := honest_of I hin hi.1
    obtain ⟨G', e1, e2, e3, e4⟩ := record_eq e
    have hB := Lib.bodies_keep hO.tidy x.cached hO.kind x.enabled x.index _ hH (W.initialised x.graph) (W.log x.graph) hO.made hW
    obtain ⟨v1, -, v3, -⟩ := valid_of_bodies hO.tidy x.enabled x.index _ hH _ _ hB _ _ e1
    have vm := frame_mirrors hO.tidy x.enabled x.index _ hH _ _ hB e1
    refine ⟨?_, ?_, ?_, ?_⟩
    · exact (streamValid_append _ _ _).2 ⟨I.valid, v1⟩
    · intro i a l m ha
      have := vm i a l m ha
      show execAll g0 (stream h ++ f.recd.cmds) i a l m = _
      rw [execAll_append]
      unfold lastKnown Ran.knows
      simp only
      split at this
      · rename_i t ht
        rw [ht]
        exact this
      · rename_i ht
        rw [ht, this]
        exact I.true' i a l m ha
    · intro n v hv
      rw [e4]
      by_cases hn : n = x.graph
      · simp only [hn, if_true]
        exact v3 v hv
      · simp only [hn, if_false]
        exact I.whole n v hv
    · intro n
      rw [e4]
      by_cases hn : n = x.graph
      · simp only [hn, if_true]
        rw [e3]
        exact I.inputs _
      · simp only [hn, if_false]
        exact I.inputs n

/-! ### Any part of a session is a session -/

theorem session_part {W0 W : World} {newer older : List Ran} {a : Ran} (hs : Session sepDS W0 (newer ++ a :: older) W) :
    ∃ W1, Session sepDS W0 older a.before ∧ a.before.record sepDS a.job = some (W1, a.frame)
      ∧ Session sepDS W0 (a :: older) W1 := by
  induction newer generalizing W with
  | nil =>
    cases hs with
    | run s e => exact ⟨W, s, e, .run s e⟩
  | cons b newer ih =>
    cases hs with
    | run s e => exact ih s

theorem informed_part {newer older : List Ran} (h : AllInformed g0 (newer ++ older)) : AllInformed g0 older := by
  induction newer with
  | nil => exact h
  | cons b newer ih => exact ih h.2

theorem chained_part {newer older : List Ran} (h : Chained (newer ++ older)) : Chained older := by
  induction newer with
  | nil => exact h
  | cons b newer ih =>
    refine ih ?_
    cases hn : newer ++ older with
    | nil => trivial
    | cons x l =>
      rw [List.cons_append, hn] at h
      exact h.2

/-! ### C94 -/

/-- C94 (partial: tidy views, passes of the library's kinds). Graphs sharing images are recorded and submitted one after the
other, in any order and any number of times, with any passes enabled. If each is well informed when it is recorded, everything
the GPU is given is valid, and every pass of every graph finds its images in the layouts it asked for. -/
theorem shared_images_valid_partial {W0 : World} (hin : ∀ n v, V v → Whole (W0.st n).inputs v)
    (hfin : ∀ n v, V v → Whole (W0.st n).final.images v) {h : List Ran} {W : World} (hs : Session sepDS W0 h W)
    (hf : ∀ a ∈ h, Fine sepDS fmt V a) (hi : AllInformed g0 h) :
    StreamValid g0 (stream h)
    ∧ ∀ newer a older, h = newer ++ a :: older → ∀ q r,
      Enters ⟨sepDS, a.job.enabled⟩ (a.before.st a.job.graph) a.job.index a.job.passes
        (frameStart sepDS (a.before.finals a.job.deps) a.job.passes (a.before.initialised a.job.graph) (a.before.log a.job.graph)) q r →
      Ready sepDS fmt (execAll g0 (stream older ++ r.cmds)) q (a.job.index q.id) := by
  refine ⟨(session_inv hin hfin hs hf hi).valid, ?_⟩
  rintro newer a older rfl q r he
  obtain ⟨W1, s, -, -⟩ := session_part hs
  have hi' := informed_part hi
  have I := session_inv hin hfin s (fun x hx => hf x (by simp [hx])) hi'.2
  obtain ⟨hO, hW⟩ := hf a (by simp)
  have hH := honest_of I hin hi'.1
  have hB := Lib.bodies_keep hO.tidy a.job.cached hO.kind a.job.enabled a.job.index _ hH (a.before.initialised a.job.graph)
    (a.before.log a.job.graph) hO.made hW
  have := (ready_of_bodies hO.tidy a.job.enabled a.job.index _ hH _ _ hB q r he).2
  intro x hx hm v hv
  rw [execAll_append]
  exact (this x hx hm v hv).1

/-! ### Chained graphs are well informed -/

/-- What holds along a chained session: the graphs only know actual layouts, and what one of them knows, the last one knows. -/
structure CInv (W0 : World) (h : List Ran) (W : World) : Prop where
  defined : ∀ n, Defined (W.st n).final
  inputs : ∀ n, (W.st n).inputs = LayoutMap.empty
  empty : h = [] → ∀ n, (W.st n).final = Ctx.new
  last : ∀ b l, h = b :: l → (W.st b.job.graph).final = b.frame.recd.ctx ∧ (∀ i k m, lastKnown h i k m = b.knows i k m)
    ∧ ∀ n i k m, (W.st n).final.images.at i k m ≠ none → b.knows i k m ≠ none

theorem start_at_defined {ds : List Ctx} (h : ∀ d ∈ ds, Defined d) : Defined (startCtx ds) := by
  intro i l m t e
  rcases start_images ds Ctx.new i with e1 | ⟨-, d, hd, e1⟩
  · unfold LayoutMap.at at e
    rw [show (startCtx ds).images i = _ from e1] at e
    simp [Ctx.new, LayoutMap.empty] at e
  · refine h d hd i l m t ?_
    unfold LayoutMap.at at e ⊢
    rw [show (startCtx ds).images i = _ from e1] at e
    exact e

theorem add_images (c d : Ctx) (i : Nat) (x : LayerStates) (h : c.images i = some x) : (c.addStates d).images i = some x := by
  show (c.images.addStates d.images) i = _
  unfold LayoutMap.addStates
  rw [h]

theorem fold_images {i : Nat} {x : LayerStates} : ∀ (ds : List Ctx) (c : Ctx), c.images i = some x → (ds.foldl Ctx.addStates c).images i = some x
  | [], _, h => h
  | d :: ds, c, h => fold_images ds (c.addStates d) (add_images c d i x h)

/-- The first dependency has the last word on the images it knows. -/
theorem start_first {d : Ctx} {ds : List Ctx} {i l m : Nat} (h : d.images.at i l m ≠ none) :
    (startCtx (d :: ds)).images.at i l m = d.images.at i l m := by
  have h0 : ∃ x, d.images i = some x := by
    unfold LayoutMap.at at h
    cases e : d.images i with
    | none => rw [e] at h; exact absurd rfl h
    | some x => exact ⟨x, rfl⟩
  obtain ⟨x, hx⟩ := h0
  have : (startCtx (d :: ds)).images i = some x := by
    show ((d :: ds).foldl Ctx.addStates Ctx.new).images i = some x
    rw [List.foldl_cons]
    refine fold_images ds _ ?_
    show (LayoutMap.addStates Ctx.new.images d.images) i = _
    unfold LayoutMap.addStates
    exact hx
  unfold LayoutMap.at
  rw [this, hx]

/-- What the context knows when the recording starts, some dependency knew. -/
theorem start_from {ds : List Ctx} {i l m : Nat} (h : (startCtx ds).images.at i l m ≠ none) :
    ∃ d ∈ ds, (startCtx ds).images.at i l m = d.images.at i l m := by
  rcases start_images ds Ctx.new i with e | ⟨-, d, hd, e⟩
  · exfalso
    apply h
    unfold LayoutMap.at
    rw [show (startCtx ds).images i = _ from e]
    rfl
  · refine ⟨d, hd, ?_⟩
    unfold LayoutMap.at
    rw [show (startCtx ds).images i = _ from e]

theorem finals_first {W : World} {x : Job} {n : Nat} (h : x.deps.head? = some n) :
    ∃ ds, W.finals x.deps = (W.st n).final :: ds := by
  unfold World.finals
  cases hd : x.deps with
  | nil => rw [hd] at h; simp at h
  | cons d ds =>
    rw [hd] at h
    simp only [List.head?_cons, Option.some.injEq] at h
    exact ⟨_, by rw [List.map_cons, h]⟩

theorem informed_of {W0 W : World} {h : List Ran} {x : Job} (I : CInv W0 h W)
    (hc : ∀ b l, h = b :: l → x.deps.head? = some b.job.graph) : Informed g0 h W x := by
  intro i l m s hk
  cases h with
  | nil =>
    exfalso
    have h0 : (startCtx (W.finals x.deps)).images.at i l m = none := by
      refine Classical.byContradiction fun hn => ?_
      obtain ⟨d, hd, e⟩ := start_from hn
      obtain ⟨n, -, rfl⟩ := List.mem_map.1 hd
      rw [e, I.empty rfl] at hn
      exact hn rfl
    unfold known at hk
    rw [h0, I.inputs, I.empty rfl] at hk
    simp [LayoutMap.at, LayoutMap.empty, Ctx.new] at hk
  | cons b older =>
    obtain ⟨l1, l2, l3⟩ := I.last b older rfl
    obtain ⟨ds, hds⟩ := finals_first (W := W) (hc b older rfl)
    have hb : ∀ i l m, (W.st b.job.graph).final.images.at i l m = b.knows i l m := fun i l m => by
      rw [l1]
      rfl
    have key : b.knows i l m ≠ none := by
      unfold known at hk
      cases e0 : (startCtx (W.finals x.deps)).images.at i l m with
      | some t =>
        obtain ⟨d, hd, e⟩ := start_from (ds := W.finals x.deps) (i := i) (l := l) (m := m) (by rw [e0]; simp)
        obtain ⟨n, -, rfl⟩ := List.mem_map.1 hd
        exact l3 n i l m (by rw [← e, e0]; simp)
      | none =>
        rw [e0, I.inputs] at hk
        simp only [LayoutMap.at, LayoutMap.empty] at hk
        exact l3 x.graph i l m (by unfold LayoutMap.at; rw [hk]; simp)
    have e := start_first (d := (W.st b.job.graph).final) (ds := ds) (i := i) (l := l) (m := m) (by rw [hb]; exact key)
    rw [← hds, hb] at e
    rw [l2]
    unfold known at hk
    rw [e] at hk
    cases hb' : b.knows i l m with
    | none => exact absurd hb' key
    | some t =>
      rw [hb'] at hk
      simp only [Option.some.injEq] at hk
      simp only [hk]

theorem chained_inv {W0 : World} (hW0 : Fresh W0) {h : List Ran} {W : World} (hs : Session sepDS W0 h W)
    (hf : ∀ a ∈ h, Fine sepDS fmt V a) (hc : Chained h) : CInv W0 h W := by
  induction hs with
  | start =>
    exact ⟨fun n => by rw [(hW0 n).2]; exact empty_defined, fun n => (hW0 n).1, fun _ n => (hW0 n).2, fun _ _ e => by simp at e⟩
  | @run h W W' x f s e ih =>
    have I := ih (fun a ha => hf a (by simp [ha])) (chained_part (newer := [_]) hc)
    obtain ⟨hO, -⟩ := hf ⟨x, W, f⟩ (by simp)
    obtain ⟨G', e1, e2, e3, e4⟩ := record_eq e
    obtain ⟨-, st, -⟩ := steady_record hO e1
    have hd0 : Defined (startCtx (W.finals x.deps)) := start_at_defined fun d hd => by
      obtain ⟨n, -, rfl⟩ := List.mem_map.1 hd
      exact I.defined n
    obtain ⟨d1, m1, -⟩ := st.1 (start_defined hd0 _ _)
    have hmono : ∀ i k m, (startCtx (W.finals x.deps)).images.at i k m ≠ none → f.recd.ctx.images.at i k m ≠ none := by
      intro i k m hn hz
      refine hn ?_
      have := m1 i k m hz
      rw [show (frameStart sepDS (W.finals x.deps) x.passes (W.initialised x.graph) (W.log x.graph)).recd.ctx.images
        = (startCtx (W.finals x.deps)).images from (firstAnnounce_keeps sepDS x.passes (startCtx (W.finals x.deps))).1] at this
      exact this
    have hprev : ∀ b l, h = b :: l → ∀ i k m, b.knows i k m ≠ none → f.recd.ctx.images.at i k m ≠ none := by
      intro b l hb i k m hk
      subst hb
      obtain ⟨l1, -, -⟩ := I.last b l rfl
      obtain ⟨ds, hds⟩ := finals_first (W := W) hc.1
      refine hmono i k m ?_
      have h1 : (W.st b.job.graph).final.images.at i k m ≠ none := by rw [l1]; exact hk
      rw [hds, start_first h1]
      exact h1
    have hold : ∀ n i k m, (W.st n).final.images.at i k m ≠ none → f.recd.ctx.images.at i k m ≠ none := by
      intro n i k m hk
      cases h with
      | nil =>
        rw [I.empty rfl] at hk
        exact absurd rfl hk
      | cons b l => exact hprev b l rfl i k m ((I.last b l rfl).2.2 n i k m hk)
    refine ⟨?_, ?_, fun e => by simp at e, ?_⟩
    · intro n
      rw [e4]
      by_cases hn : n = x.graph
      · simp only [hn, if_true, e2]
        exact d1
      · simp only [hn, if_false]
        exact I.defined n
    · intro n
      rw [e4]
      by_cases hn : n = x.graph
      · simp only [hn, if_true, e3]
        exact I.inputs _
      · simp only [hn, if_false]
        exact I.inputs n
    · intro b l hb
      simp only [List.cons.injEq] at hb
      obtain ⟨rfl, rfl⟩ := hb
      refine ⟨by rw [e4]; simp only [if_true, e2], ?_, ?_⟩
      · intro i k m
        unfold lastKnown
        cases hk : Ran.knows ⟨x, W, f⟩ i k m with
        | some t => rfl
        | none =>
          show lastKnown h i k m = none
          cases h with
          | nil => rfl
          | cons b l =>
            rw [(I.last b l rfl).2.1]
            exact Classical.byContradiction fun hn => hprev b l rfl i k m hn hk
      · intro n i k m hk
        rw [e4] at hk
        show f.recd.ctx.images.at i k m ≠ none
        by_cases hn : n = x.graph
        · simp only [hn, if_true, e2] at hk
          exact hk
        · simp only [hn, if_false] at hk
          exact hold n i k m hk

theorem chained_informed {W0 : World} (hW0 : Fresh W0) {h : List Ran} {W : World} (hs : Session sepDS W0 h W)
    (hf : ∀ a ∈ h, Fine sepDS fmt V a) (hc : Chained h) : AllInformed g0 h := by
  induction hs with
  | start => trivial
  | @run h W W' x f s e ih =>
    have hc' := chained_part (newer := [_]) hc
    have hf' : ∀ a ∈ h, Fine sepDS fmt V a := fun a ha => hf a (by simp [ha])
    exact ⟨informed_of (chained_inv hW0 s hf' hc') fun b l hb => by subst hb; exact hc.1, ih hf' hc'⟩

theorem fresh_whole {W : World} (h : Fresh W) : (∀ n v, V v → Whole (W.st n).inputs v) ∧ ∀ n v, V v → Whole (W.st n).final.images v :=
  ⟨fun n v _ => by rw [(h n).1]; exact Or.inl fun _ _ _ => rfl, fun n v _ => by rw [(h n).2]; exact Or.inl fun _ _ _ => rfl⟩

/-- C94 (partial: tidy views, passes of the library's kinds). Graphs that share images are run one after the other, in any order
and any number of times; each time, the graph depends first on the one run just before. Then everything the GPU is given is
valid, and every pass of every graph finds its images in the layouts it asked for, wherever the images were left. -/
theorem chained_graphs_valid_partial {W0 : World} (hW0 : Fresh W0) {h : List Ran} {W : World} (hs : Session sepDS W0 h W)
    (hf : ∀ a ∈ h, Fine sepDS fmt V a) (hc : Chained h) (g0 : Layouts) :
    StreamValid g0 (stream h)
    ∧ ∀ newer a older, h = newer ++ a :: older → ∀ q r,
      Enters ⟨sepDS, a.job.enabled⟩ (a.before.st a.job.graph) a.job.index a.job.passes
        (frameStart sepDS (a.before.finals a.job.deps) a.job.passes (a.before.initialised a.job.graph) (a.before.log a.job.graph)) q r →
      Ready sepDS fmt (execAll g0 (stream older ++ r.cmds)) q (a.job.index q.id) :=
  shared_images_valid_partial (fresh_whole hW0).1 (fresh_whole hW0).2 hs hf (chained_informed hW0 hs hf hc)

/-- What a graph knew when its execution ended, the graphs run after it find unchanged. -/
theorem chained_known {W0 : World} (hW0 : Fresh W0) {newer older : List Ran} {b : Ran} {W : World}
    (hs : Session sepDS W0 (newer ++ b :: older) W) (hf : ∀ a ∈ newer ++ b :: older, Fine sepDS fmt V a)
    (hc : Chained (newer ++ b :: older)) {c : Cell} (hk : b.knows c.image c.layer c.level ≠ none) :
    ∀ a ∈ newer, (startCtx (a.before.finals a.job.deps)).images.at c.image c.layer c.level ≠ none
      ∧ a.knows c.image c.layer c.level ≠ none := by
  induction newer generalizing W with
  | nil => intro a ha; simp at ha
  | cons x newer ih =>
    cases hs with
    | @run _ W1 _ job f s e =>
      have hc' := chained_part (newer := [_]) hc
      have hf' : ∀ a ∈ newer ++ b :: older, Fine sepDS fmt V a := fun a ha => hf a (by rw [List.cons_append]; exact List.mem_cons_of_mem _ ha)
      have ih := ih s hf' hc'
      have I := chained_inv hW0 s hf' hc'
      obtain ⟨hO, -⟩ := hf ⟨job, W1, f⟩ (by simp)
      obtain ⟨G', e1, e2, e3, e4⟩ := record_eq e
      obtain ⟨-, st, -⟩ := steady_record hO e1
      have hd0 : Defined (startCtx (W1.finals job.deps)) := start_at_defined fun d hd => by
        obtain ⟨n, -, rfl⟩ := List.mem_map.1 hd
        exact I.defined n
      obtain ⟨-, m1, -⟩ := st.1 (start_defined hd0 _ _)
      have hstart : (startCtx (W1.finals job.deps)).images.at c.image c.layer c.level ≠ none := by
        cases hn : newer ++ b :: older with
        | nil => simp at hn
        | cons y l =>
          have hy : y.knows c.image c.layer c.level ≠ none := by
            cases newer with
            | nil =>
              simp only [List.nil_append, List.cons.injEq] at hn
              rw [← hn.1]
              exact hk
            | cons z zs =>
              simp only [List.cons_append, List.cons.injEq] at hn
              rw [← hn.1]
              exact (ih z (by simp)).2
          rw [List.cons_append, hn] at hc
          obtain ⟨ds, hds⟩ := finals_first (W := W1) hc.1
          have h1 : (W1.st y.job.graph).final.images.at c.image c.layer c.level ≠ none := by
            rw [(I.last y l hn).1]
            exact hy
          rw [hds, start_first h1]
          exact h1
      intro a ha
      rcases List.mem_cons.1 ha with rfl | ha
      · refine ⟨hstart, fun hz => hstart ?_⟩
        have := m1 _ _ _ hz
        rw [show (frameStart sepDS (W1.finals job.deps) job.passes (W1.initialised job.graph) (W1.log job.graph)).recd.ctx.images
          = (startCtx (W1.finals job.deps)).images from (firstAnnounce_keeps sepDS job.passes (startCtx (W1.finals job.deps))).1] at this
        exact this
      · exact ih a ha

/-- One run keeps a byte known when it starts: until the body of a pass, and until its end. -/
theorem run_keeps {W W' : World} {x : Job} {f : Frame} (e : W.record sepDS x = some (W', f)) (hf : Fine sepDS fmt V ⟨x, W, f⟩)
    (hd : ∀ n, Defined (W.st n).final) {c : Cell} (hk : (startCtx (W.finals x.deps)).images.at c.image c.layer c.level ≠ none) :
    (¬ MayLose x.enabled x.passes c → ∀ dev M, (∀ k ∈ f.recd.cmds, ¬ Writes dev k c) →
      (steps dev M f.recd.cmds).image c = M.image c)
    ∧ ∀ k r, RPass.enteredRec ⟨sepDS, x.enabled⟩ (W.st x.graph) x.index x.passes
        (frameStart sepDS (W.finals x.deps) x.passes (W.initialised x.graph) (W.log x.graph)) k = some r →
      ¬ MayLose x.enabled (x.passes.take k) c → ∀ dev M, (∀ k ∈ r.cmds, ¬ Writes dev k c) → (steps dev M r.cmds).image c = M.image c := by
  obtain ⟨G', e1, -, -, -⟩ := record_eq e
  obtain ⟨-, st, sp⟩ := steady_record hf.1 e1
  have hd0 : Defined (startCtx (W.finals x.deps)) := start_at_defined fun d hd' => by
    obtain ⟨n, -, rfl⟩ := List.mem_map.1 hd'
    exact hd n
  have ht : (frameStart sepDS (W.finals x.deps) x.passes (W.initialised x.graph) (W.log x.graph)).recd.ctx.images.at c.image c.layer c.level
      ≠ none := by
    rw [show (frameStart sepDS (W.finals x.deps) x.passes (W.initialised x.graph) (W.log x.graph)).recd.ctx.images
      = (startCtx (W.finals x.deps)).images from (firstAnnounce_keeps sepDS x.passes (startCtx (W.finals x.deps))).1]
    exact hk
  refine ⟨?_, ?_⟩
  · intro hl dev M hw
    obtain ⟨-, -, p⟩ := st.1 (start_defined hd0 _ _)
    exact kept_until p ht hl (cs := f.recd.cmds) (ds := []) (by rw [List.append_nil]; rfl) dev hw M
  · intro k r hr hl dev M hw
    obtain ⟨p, -, -, t1, -⟩ := sp k r hr
    obtain ⟨-, -, p⟩ := t1.1 (start_defined hd0 _ _)
    exact kept_until p ht hl (cs := r.cmds) (ds := []) (by rw [List.append_nil]; rfl) dev hw M

/-- C94 (partial, as `chained_graphs_valid_partial`), contents. Take a byte of an image graph `b` knows when its execution ends.
However many graphs are run after it, and whatever they do with the image, the byte stays until a command writes it, unless a
graph draws to the image without both loading and storing it: it is there when they are all done, and when the body of any pass
of the next graph starts. -/
theorem chained_contents_kept_partial {W0 : World} (hW0 : Fresh W0) {newer older : List Ran} {b : Ran} {W : World}
    (hs : Session sepDS W0 (newer ++ b :: older) W) (hf : ∀ a ∈ newer ++ b :: older, Fine sepDS fmt V a)
    (hc : Chained (newer ++ b :: older)) {c : Cell} (hk : b.knows c.image c.layer c.level ≠ none)
    (hl : ∀ a ∈ newer, ¬ MayLose a.job.enabled a.job.passes c) (dev : Device) (M : Memory)
    (hw : ∀ a ∈ newer, ∀ k ∈ a.frame.recd.cmds, ¬ Writes dev k c) :
    (steps dev M (stream (newer ++ b :: older))).image c = (steps dev M (stream (b :: older))).image c
    ∧ ∀ x W' f, W.record sepDS x = some (W', f) → Fine sepDS fmt V ⟨x, W, f⟩ → Chained (⟨x, W, f⟩ :: newer ++ b :: older) →
      ∀ k r, RPass.enteredRec ⟨sepDS, x.enabled⟩ (W.st x.graph) x.index x.passes
          (frameStart sepDS (W.finals x.deps) x.passes (W.initialised x.graph) (W.log x.graph)) k = some r →
        ¬ MayLose x.enabled (x.passes.take k) c → (∀ k ∈ r.cmds, ¬ Writes dev k c) →
        (steps dev M (stream (newer ++ b :: older) ++ r.cmds)).image c = (steps dev M (stream (b :: older))).image c := by
  have first : (steps dev M (stream (newer ++ b :: older))).image c = (steps dev M (stream (b :: older))).image c := by
    induction newer generalizing W with
    | nil => rfl
    | cons x newer ih =>
      have hs' := hs
      cases hs with
      | @run _ W1 _ job f s e =>
        have hc' := chained_part (newer := [_]) hc
        have hf' : ∀ a ∈ newer ++ b :: older, Fine sepDS fmt V a :=
          fun a ha => hf a (by rw [List.cons_append]; exact List.mem_cons_of_mem _ ha)
        have ih := ih s hf' hc' (fun a ha => hl a (by simp [ha])) (fun a ha => hw a (by simp [ha]))
        have I := chained_inv hW0 s hf' hc'
        have hst := (chained_known hW0 hs' hf hc hk ⟨job, W1, f⟩ (by simp)).1
        rw [← ih]
        show (steps dev M (stream (newer ++ b :: older) ++ f.recd.cmds)).image c = _
        rw [steps_append]
        exact (run_keeps e (hf ⟨job, W1, f⟩ (by simp)) I.defined hst).1 (hl ⟨job, W1, f⟩ (by simp)) dev _ (hw ⟨job, W1, f⟩ (by simp))
  refine ⟨first, ?_⟩
  intro x W' f e hfx hcx k r hr hlk hwk
  have hs' : Session sepDS W0 ((⟨x, W, f⟩ :: newer) ++ b :: older) W' := .run hs e
  have hf' : ∀ a ∈ (⟨x, W, f⟩ :: newer) ++ b :: older, Fine sepDS fmt V a := by
    intro a ha
    rcases List.mem_cons.1 ha with rfl | ha
    · exact hfx
    · exact hf a ha
  have hst := (chained_known hW0 hs' hf' hcx hk ⟨x, W, f⟩ (by simp)).1
  rw [← first, steps_append]
  exact (run_keeps e hfx (chained_inv hW0 hs hf hc).defined hst).2 k r hr hlk dev _ hwk

/-- What an enabled pass of a graph uses (sampled, storage, transfer, implicit), the graph knows when its execution ends. -/
theorem used_known_partial {W0 : World} (hW0 : Fresh W0) {h : List Ran} {W : World} {b : Ran} (hs : Session sepDS W0 (b :: h) W)
    (hf : ∀ a ∈ b :: h, Fine sepDS fmt V a) (hc : Chained (b :: h)) {p : RunPass} (hp : p ∈ b.job.passes)
    (hen : b.job.enabled p.id = true) {c : Cell} (hn : Named p (b.job.index p.id) c) : b.knows c.image c.layer c.level ≠ none := by
  cases hs with
  | @run _ W1 _ x f s e =>
    have hc' := chained_part (newer := [_]) hc
    have hf' : ∀ a ∈ h, Fine sepDS fmt V a := fun a ha => hf a (by simp [ha])
    obtain ⟨hO, hW⟩ := hf ⟨x, W1, f⟩ (by simp)
    have I := session_inv (g0 := fun _ _ _ _ => 0) (fresh_whole hW0).1 (fresh_whole hW0).2 s hf' (chained_informed hW0 s hf' hc')
    have J := chained_inv hW0 s hf' hc'
    have hH := honest_of I (fresh_whole hW0).1 (chained_informed (g0 := fun _ _ _ _ => 0) hW0 (.run s e) hf hc).1
    obtain ⟨G', e1, -, -, -⟩ := record_eq e
    obtain ⟨-, -, sp⟩ := steady_record hO e1
    have el : ∃ f', recordLoop ⟨sepDS, x.enabled⟩ (W1.st x.graph) x.index x.passes
        (frameStart sepDS (W1.finals x.deps) x.passes (W1.initialised x.graph) (W1.log x.graph)) = some f' := by
      unfold Run.record at e1
      simp only at e1
      split at e1
      · simp at e1
      · rename_i f1 e2
        exact ⟨f1, e2⟩
    obtain ⟨f', el⟩ := el
    obtain ⟨k, r, hk, hr⟩ := entered_exists _ _ _ el p hp hen
    obtain ⟨q, hq, hE, t1, t2, t3⟩ := sp k r hr
    rw [hk] at hq
    cases hq
    have hd0 : Defined (startCtx (W1.finals x.deps)) := start_at_defined fun d hd => by
      obtain ⟨n, -, rfl⟩ := List.mem_map.1 hd
      exact J.defined n
    obtain ⟨d1, -, -⟩ := t1.1 (start_defined hd0 _ _)
    obtain ⟨d2, m2, -⟩ := t2.1 d1
    obtain ⟨-, m3, -⟩ := t3.1 d2
    have ht := named_tracked hO hH hW hE hn
    exact fun hz => ht (m2 _ _ _ (m3 _ _ _ hz))

/-! ### The hypotheses are met, and needed -/

/-- A graph that updates an image, and one that samples it. -/
def sUpdate : RunPass :=
  ⟨2, 1, true, ⟨Access.shaderRead, Stage.computeShader⟩, [ImageAdder.inOutStorage.attach 2 0 [xView]], [], [], fun _ r => r.emit (.work 2)⟩

def sW : World := ⟨fun _ => xG, fun _ _ _ => false, fun _ => []⟩
def jUpdate (deps : List Nat) : Job := ⟨1, [sUpdate], deps, fun _ => true, fun _ => 0, fun _ _ => none⟩
def jRead (deps : List Nat) : Job := ⟨2, [hRead], deps, fun _ => true, fun _ => 0, fun _ _ => none⟩
def jThird (deps : List Nat) : Job := ⟨3, [sUpdate], deps, fun _ => true, fun _ => 0, fun _ _ => none⟩

/-- The runs, in order. -/
def runAll (W : World) : List Job → List Ran → Option (List Ran × World)
  | [], h => some (h, W)
  | x :: xs, h => match W.record false x with
    | none => none
    | some (W', f) => runAll W' xs (⟨x, W, f⟩ :: h)

theorem runAll_session {W0 : World} : ∀ (xs : List Job) {W W' : World} {h h' : List Ran}, Session false W0 h W →
    runAll W xs h = some (h', W') → Session false W0 h' W'
  | [], _, _, _, _, s, e => by
    simp only [runAll, Option.some.injEq, Prod.mk.injEq] at e
    obtain ⟨rfl, rfl⟩ := e
    exact s
  | x :: xs, W, W', h, h', s, e => by
    unfold runAll at e
    split at e
    · simp at e
    · rename_i W1 f e1
      exact runAll_session xs (.run s e1) e

/-- A graph of one of these passes is fine, whatever happened before. -/
theorem one_fine {p : RunPass} (hp : p = sUpdate ∨ p = hRead) (n : Nat) (deps : List Nat) (W : World) (f : Frame) :
    Fine false (fun _ => 37) xV ⟨⟨n, [p], deps, fun _ => true, fun _ => 0, fun _ _ => none⟩, W, f⟩ := by
  have himg : ∃ m k, p.images = [ImageAdder.attach m k 0 [xView]] ∧ p.implicitActions = []
      ∧ ((m = .inOutStorage ∧ k = 2) ∨ (m = .sampled ∧ k = 1)) := by
    rcases hp with rfl | rfl
    · exact ⟨.inOutStorage, 2, rfl, rfl, Or.inl ⟨rfl, rfl⟩⟩
    · exact ⟨.sampled, 1, rfl, rfl, Or.inr ⟨rfl, rfl⟩⟩
  obtain ⟨m, k, himg, hact, hm⟩ := himg
  have hatt : ∀ x, AttachedTo [p] x → x = xView := by
    rintro x ⟨q, hq, a, ha, hx⟩
    simp only [List.mem_cons, List.not_mem_nil, or_false] at hq
    subst hq
    rw [himg, List.mem_singleton] at ha
    subst ha
    rcases hm with ⟨rfl, rfl⟩ | ⟨rfl, rfl⟩ <;> simpa [ImageAdder.attach, mkImage] using hx
  have hT : TidyViews false (fun _ => 37) xV [p] := by
    refine ⟨⟨?_, ?_, ?_, ?_⟩, ?_, ?_, ?_, ?_, ?_⟩
    · rintro v rfl; rfl
    · rintro v rfl; decide
    · rintro v rfl; decide
    · rintro v w rfl rfl; exact Or.inr ⟨rfl, fun _ _ => Iff.rfl⟩
    · rintro u v rfl rfl _; rfl
    · intro x hx
      rw [hatt x hx]
      exact ⟨rfl, by decide⟩
    · intro q hq a ha _
      simp only [List.mem_cons, List.not_mem_nil, or_false] at hq
      subst hq
      rw [himg, List.mem_singleton] at ha
      subst ha
      rcases hm with ⟨rfl, rfl⟩ | ⟨rfl, rfl⟩ <;> decide
    · intro q hq index
      simp only [List.mem_cons, List.not_mem_nil, or_false] at hq
      subst hq
      rw [himg]
      simp
    · intro q hq va hva
      simp only [List.mem_cons, List.not_mem_nil, or_false] at hq
      subst hq
      rw [hact] at hva
      simp at hva
  have hkind : ∀ G, ∀ q ∈ [p], Lib.Kind false G xV [p] (fun _ => none) q := by
    intro G q hq
    simp only [List.mem_cons, List.not_mem_nil, or_false] at hq
    subst hq
    rcases hp with rfl | rfl
    · exact .uses fun _ r => ⟨[.work 2], by simp [BodyCall], rfl⟩
    · exact .uses fun _ r => ⟨[.work 1], by simp [BodyCall], rfl⟩
  have hmip : ∀ G q, q ∈ [p] → ¬ ∃ ty output, Lib.MakesMipmaps false G q ty output := by
    rintro G q hq ⟨ty, output, hM⟩
    simp only [List.mem_cons, List.not_mem_nil, or_false] at hq
    subst hq
    rcases hp with rfl | rfl <;>
      exact absurd ((hM.declared _ rfl).2 xView (by simp [ImageAdder.attach, mkImage])).2.2 (by decide)
  have htar : ∀ q ∈ [p], ∀ a ∈ q.images, RPass.isTarget a = false := by
    intro q hq a ha
    simp only [List.mem_cons, List.not_mem_nil, or_false] at hq
    subst hq
    rw [himg, List.mem_singleton] at ha
    subst ha
    rcases hm with ⟨rfl, rfl⟩ | ⟨rfl, rfl⟩ <;> rfl
  refine ⟨⟨hT, hkind _, fun _ _ _ h => by simp at h, fun _ _ he h => absurd h (hmip _ _ (enters_mem he))⟩, ?_⟩
  intro q r he
  refine ⟨fun _ => ⟨fun _ h => by simp at h, ?_⟩, fun h => absurd h (hmip _ _ (enters_mem he))⟩
  intro a ha ht
  rw [htar q (enters_mem he) a ha] at ht
  simp at ht

theorem runAll_jobs : ∀ (xs : List Job) {W W' : World} {h h' : List Ran}, runAll W xs h = some (h', W') →
    h'.map Ran.job = xs.reverse ++ h.map Ran.job
  | [], _, _, _, _, e => by
    simp only [runAll, Option.some.injEq, Prod.mk.injEq] at e
    simp [e.1]
  | x :: xs, W, W', h, h', e => by
    unfold runAll at e
    split at e
    · simp at e
    · rename_i W1 f e1
      rw [runAll_jobs xs e]
      simp

theorem chained_jobs : ∀ (h : List Ran), (∀ (i : Nat) (x y : Job), (h.map Ran.job)[i]? = some x → (h.map Ran.job)[i + 1]? = some y →
    x.deps.head? = some y.graph) → Chained h
  | [], _ => trivial
  | [_], _ => trivial
  | a :: b :: h, hj => ⟨hj 0 a.job b.job rfl rfl, chained_jobs (b :: h) fun i x y hx hy => hj (i + 1) x y (by simpa using hx) (by simpa using hy)⟩

set_option maxRecDepth 20000 in
/-- Two graphs, run in turn, each depending on the other: the image is moved to and fro. -/
theorem example_chain : ∃ h W, Session false sW h W ∧ Fresh sW ∧ Chained h ∧ (∀ a ∈ h, Fine false (fun _ => 37) xV a)
    ∧ h.map Ran.job = [jRead [1], jUpdate [2], jRead [1], jUpdate []]
    ∧ stream h = [.imageBarrier 1 RPass.rng1 ⟨0, 16384⟩ ⟨0, 8192⟩ 0 1, .work 2,
        .imageBarrier 1 RPass.rng1 ⟨0, 8192⟩ ⟨32, 128⟩ 1 5, .work 1,
        .imageBarrier 1 RPass.rng1 ⟨32, 128⟩ ⟨0, 8192⟩ 5 1, .work 2,
        .imageBarrier 1 RPass.rng1 ⟨0, 8192⟩ ⟨32, 128⟩ 1 5, .work 1] := by
  have h : (runAll sW [jUpdate [], jRead [1], jUpdate [2], jRead [1]] []).map (fun x => stream x.1)
    = some [.imageBarrier 1 RPass.rng1 ⟨0, 16384⟩ ⟨0, 8192⟩ 0 1, .work 2,
        .imageBarrier 1 RPass.rng1 ⟨0, 8192⟩ ⟨32, 128⟩ 1 5, .work 1,
        .imageBarrier 1 RPass.rng1 ⟨32, 128⟩ ⟨0, 8192⟩ 5 1, .work 2,
        .imageBarrier 1 RPass.rng1 ⟨0, 8192⟩ ⟨32, 128⟩ 1 5, .work 1] := by decide +kernel
  obtain ⟨⟨h, W⟩, e, es⟩ := Option.map_eq_some_iff.1 h
  have hj := runAll_jobs _ e
  simp only [List.reverse_cons, List.reverse_nil, List.nil_append, List.cons_append, List.map_nil, List.append_nil] at hj
  refine ⟨h, W, runAll_session _ .start e, fun _ => ⟨rfl, rfl⟩, ?_, ?_, hj, es⟩
  · refine chained_jobs h fun i x y hx hy => ?_
    rw [hj] at hx hy
    match i with
    | 0 => cases hx; cases hy; rfl
    | 1 => cases hx; cases hy; rfl
    | 2 => cases hx; cases hy; rfl
    | 3 => simp at hy
    | n + 4 => simp at hx
  · rintro ⟨x, W1, f⟩ ha
    have : x ∈ h.map Ran.job := List.mem_map.2 ⟨_, ha, rfl⟩
    rw [hj] at this
    simp only [List.mem_cons, List.not_mem_nil, or_false] at this
    rcases this with rfl | rfl | rfl | rfl <;> first
      | exact one_fine (Or.inl rfl) _ _ W1 f
      | exact one_fine (Or.inr rfl) _ _ W1 f

/-- A barrier from GENERAL right after the image was moved to SHADER_READ_ONLY, but for commands that leave it alone. -/
theorem wrong_barrier {g : Layouts} {a : List Cmd} {s t s' t' : AccessState} {k k' : Nat} {b : List Cmd} :
    ¬ StreamValid g (a ++ .imageBarrier 1 RPass.rng1 s t 1 5 :: .work k :: .work k' :: .imageBarrier 1 RPass.rng1 s' t' 1 5 :: b) := by
  intro hv
  have h := ((streamValid_append _ _ _).1 hv).2.2.2.2.1
  rcases h with h | h
  · exact absurd h (by decide)
  · have h1 := h 0 0 0 (by decide)
    have h2 : Selects RPass.rng1 0 0 0 := by decide
    simp [exec, h2] at h1

theorem jobs_fine {h : List Ran} {xs : List Job} (hj : h.map Ran.job = xs)
    (hx : ∀ x ∈ xs, ∃ n deps p, (p = sUpdate ∨ p = hRead) ∧ x = ⟨n, [p], deps, fun _ => true, fun _ => 0, fun _ _ => none⟩) :
    ∀ a ∈ h, Fine false (fun _ => 37) xV a := by
  rintro ⟨x, W1, f⟩ ha
  obtain ⟨n, deps, p, hp, e⟩ := hx x (hj ▸ List.mem_map.2 ⟨_, ha, rfl⟩)
  subst e
  exact one_fine hp n deps W1 f

/-- The dependency is needed: when the updating graph doesn't depend on the sampling one, its second run believes the image
still is where it left it, and the sampling graph then moves it from a layout it isn't in. -/
theorem untold_graph_misplaces : ∃ h W, Session false sW h W ∧ Fresh sW ∧ (∀ a ∈ h, Fine false (fun _ => 37) xV a)
    ∧ h.map Ran.job = [jRead [1], jUpdate [], jRead [1], jUpdate []]
    ∧ ∀ g0, ¬ StreamValid g0 (stream h) := by
  have h : (runAll sW [jUpdate [], jRead [1], jUpdate [], jRead [1]] []).map (fun x => stream x.1)
    = some [.imageBarrier 1 RPass.rng1 ⟨0, 16384⟩ ⟨0, 8192⟩ 0 1, .work 2,
        .imageBarrier 1 RPass.rng1 ⟨0, 8192⟩ ⟨32, 128⟩ 1 5, .work 1, .work 2,
        .imageBarrier 1 RPass.rng1 ⟨0, 8192⟩ ⟨32, 128⟩ 1 5, .work 1] := by decide +kernel
  obtain ⟨⟨h, W⟩, e, es⟩ := Option.map_eq_some_iff.1 h
  have hj := runAll_jobs _ e
  simp only [List.reverse_cons, List.reverse_nil, List.nil_append, List.cons_append, List.map_nil, List.append_nil] at hj
  refine ⟨h, W, runAll_session _ .start e, fun _ => ⟨rfl, rfl⟩, jobs_fine hj ?_, hj, ?_⟩
  · intro x hx
    simp only [List.mem_cons, List.not_mem_nil, or_false] at hx
    rcases hx with rfl | rfl | rfl | rfl <;> first
      | exact ⟨_, _, _, Or.inl rfl, rfl⟩
      | exact ⟨_, _, _, Or.inr rfl, rfl⟩
  · intro g0
    simp only at es
    rw [es]
    exact wrong_barrier (a := [_, _])

/-- Being told is not enough: the order of the dependencies matters. A third graph that depends on both, the first one first,
takes its word for where the image is, although the second moved it since; the next graph moves it from there. -/
theorem stale_dependency_misplaces : ∃ h W, Session false sW h W ∧ Fresh sW ∧ (∀ a ∈ h, Fine false (fun _ => 37) xV a)
    ∧ h.map Ran.job = [jRead [3], jThird [1, 2], jRead [1], jUpdate []]
    ∧ ∀ g0, ¬ StreamValid g0 (stream h) := by
  have h : (runAll sW [jUpdate [], jRead [1], jThird [1, 2], jRead [3]] []).map (fun x => stream x.1)
    = some [.imageBarrier 1 RPass.rng1 ⟨0, 16384⟩ ⟨0, 8192⟩ 0 1, .work 2,
        .imageBarrier 1 RPass.rng1 ⟨0, 8192⟩ ⟨32, 128⟩ 1 5, .work 1, .work 2,
        .imageBarrier 1 RPass.rng1 ⟨0, 8192⟩ ⟨32, 128⟩ 1 5, .work 1] := by decide +kernel
  obtain ⟨⟨h, W⟩, e, es⟩ := Option.map_eq_some_iff.1 h
  have hj := runAll_jobs _ e
  simp only [List.reverse_cons, List.reverse_nil, List.nil_append, List.cons_append, List.map_nil, List.append_nil] at hj
  refine ⟨h, W, runAll_session _ .start e, fun _ => ⟨rfl, rfl⟩, jobs_fine hj ?_, hj, ?_⟩
  · intro x hx
    simp only [List.mem_cons, List.not_mem_nil, or_false] at hx
    rcases hx with rfl | rfl | rfl | rfl <;> first
      | exact ⟨_, _, _, Or.inl rfl, rfl⟩
      | exact ⟨_, _, _, Or.inr rfl, rfl⟩
  · intro g0
    simp only at es
    rw [es]
    exact wrong_barrier (a := [_, _])

end Verif.Multi
