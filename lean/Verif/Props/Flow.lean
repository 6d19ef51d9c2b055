import Verif.Spec.Flow
import Verif.Model.Compile
import Verif.Props.Sort
import Verif.Props.History
import Verif.Props.Observe
import Verif.Lemmas.SettlePass
import Verif.Spec.Mixed
/-
C93: a pass finds what the passes it depends on left.
-/
namespace Verif.Run
open Verif.Rec Verif.Att Verif.Gpu

/-! ### Order -/

theorem depends_before {decl order : List Sort.Pass} (hn : (order.map Sort.Pass.addr).Nodup) (hp : order.Perm decl)
    (hf : Sort.DepsFirst order) {q w : Sort.Pass} (h : DependsOn decl q w) :
    ∀ j : Nat, order[j]? = some q → ∃ i : Nat, i < j ∧ order[i]? = some w := by
  have step : ∀ (q m : Sort.Pass) (d : Sort.Ref), m ∈ decl → d ∈ q.deps → d.addr = m.addr → ∀ j : Nat, order[j]? = some q →
      ∃ i : Nat, i < j ∧ order[i]? = some m := by
    intro q m d hm hd he j hj
    obtain ⟨hlt, e⟩ := List.getElem?_eq_some_iff.1 hj
    have hs : order = order.take j ++ q :: order.drop (j + 1) := by
      rw [← e, ← List.drop_eq_getElem_cons hlt, List.take_append_drop]
    obtain ⟨x, hx, hxa⟩ := hf _ q _ hs d hd
    obtain ⟨i, hi, ex⟩ := List.mem_iff_getElem.1 hx
    rw [List.length_take] at hi
    rw [List.getElem_take] at ex
    obtain ⟨i', hi', em⟩ := List.mem_iff_getElem.1 (hp.symm.subset hm)
    have hii : i = i' := by
      have h1 : (order.map Sort.Pass.addr)[i]'(by rw [List.length_map]; omega)
          = (order.map Sort.Pass.addr)[i']'(by rw [List.length_map]; omega) := by
        rw [List.getElem_map, List.getElem_map, ex, em, hxa, he]
      exact (List.getElem_inj hn).1 h1
    subst hii
    exact ⟨i, by omega, by rw [← em]; exact List.getElem?_eq_getElem hi'⟩
  induction h with
  | direct hw hd he => exact step _ _ _ hw hd he
  | through hm hd he _ ih =>
    intro j hj
    obtain ⟨i, hi, e⟩ := step _ _ _ hm hd he j hj
    obtain ⟨i', hi', e'⟩ := ih i e
    exact ⟨i', by omega, e'⟩

/-! ### Between two passes -/

theorem entered_at {env : Env} {G : GraphSt} {index : Nat → Nat} : ∀ (ps : List RunPass) (f f' : Frame),
    recordLoop env G index ps f = some f' → ∀ k p, ps[k]? = some p → env.enabled p.id = true →
    ∃ r, RPass.enteredRec env G index ps f k = some r
  | [], _, _, _, k, p, hp, _ => by simp at hp
  | q :: next, f, f', e, k, p, hp, hen => by
    unfold recordLoop at e
    simp only at e
    split at e
    · simp at e
    · rename_i f1 e1
      cases k with
      | zero =>
        simp only [List.getElem?_cons_zero, Option.some.injEq] at hp
        subst hp
        have e2 := e1
        unfold recordInto at e2
        rw [if_pos hen] at e2
        split at e2
        · simp only at e2
          split at e2
          · simp at e2
          · rename_i r er
            refine ⟨r, ?_⟩
            unfold RPass.enteredRec
            simp only [hen, if_true]
            rw [← er]
            congr 1
            split <;> rfl
        · simp at e2
      | succ k =>
        obtain ⟨r, h2⟩ := entered_at next f1 f' e k p (by simpa using hp) hen
        refine ⟨r, ?_⟩
        unfold RPass.enteredRec
        simp only [e1, Option.bind_some]
        exact h2

theorem entered_entersAt {env : Env} {G : GraphSt} {index : Nat → Nat} {r : Rec} : ∀ {ps : List RunPass} {f : Frame} {k : Nat},
    RPass.enteredRec env G index ps f k = some r → EntersAt env G index ps f k r
  | [], _, _, h => by simp [RPass.enteredRec] at h
  | p :: next, f, k, h => by
    unfold RPass.enteredRec at h
    simp only at h
    cases k with
    | zero =>
      simp only at h
      split at h
      · rename_i hen
        exact ⟨hen, h⟩
      · simp at h
    | succ k =>
      simp only at h
      obtain ⟨f1, e1, h⟩ := Option.bind_eq_some_iff.1 h
      exact ⟨f1, e1, entered_entersAt h⟩

/-- From the end of the body of a pass to the start of the body of a later one. -/
theorem steady_between {env : Env} {G : GraphSt} {index : Nat → Nat} : ∀ (ps : List RunPass) (f f' : Frame),
    Gentle env G index ps f → FlatPending f.recd → recordLoop env G index ps f = some f' →
    ∀ i j p r r', i < j → ps[i]? = some p → RPass.enteredRec env G index ps f i = some r →
      RPass.enteredRec env G index ps f j = some r' →
      Steady (MayLose env.enabled ((ps.take j).drop (i + 1))) (p.body (index p.id) r) r' := by
  intro ps
  induction ps with
  | nil => intro f f' _ _ _ i j p r r' _ hp; simp at hp
  | cons q next ih =>
    intro f f' hg hp e i j p r r' hij hpi hr hr'
    unfold recordLoop at e
    simp only at e
    split at e
    · simp at e
    · rename_i f1 e1
      have s0 : ∀ L, Steady L f.recd { f.recd with ctx := announce env G q next f.recd.ctx } :=
        fun L => steady_ctx _ _ (announce_keeps env G q next _).1 (announce_keeps env G q next _).2
      obtain ⟨s1, s2⟩ := steady_recordInto (L := MayLose env.enabled [q]) (f := { f with recd := _ }) (hg.views q (by simp))
        (hg.layouts q (by simp)) (hg.actions q (by simp)) (fun hen r er hr => hg.bodies q r (Or.inl ⟨rfl, hen, er⟩) hr)
        ((s0 (fun _ => False)).2 hp) e1
      have hp1 := s1.2 ((s0 (fun _ => False)).2 hp)
      have hg' : Gentle env G index next f1 :=
        ⟨fun q hq => hg.views q (by simp [hq]), fun q hq => hg.layouts q (by simp [hq]), fun q hq => hg.actions q (by simp [hq]),
          fun q r he => hg.bodies q r (Or.inr ⟨f1, e1, he⟩)⟩
      cases j with
      | zero => omega
      | succ j =>
        unfold RPass.enteredRec at hr hr'
        simp only at hr hr'
        rw [e1, Option.bind_some] at hr'
        cases i with
        | zero =>
          simp only at hr
          simp only [List.getElem?_cons_zero, Option.some.injEq] at hpi
          subst hpi
          split at hr
          · rename_i hen
            obtain ⟨-, u2⟩ := s2 hen r hr
            obtain ⟨-, -, -, v2, -⟩ := (steady_loop next f1 hg' hp1 f' e).2 j r' hr'
            simpa using steady_trans (u2 _) v2
          · simp at hr
        | succ i =>
          simp only at hr
          rw [e1, Option.bind_some] at hr
          simpa using ih f1 f' hg' hp1 e i j p r r' (by omega) (by simpa using hpi) hr hr'

theorem flat_start (sepDS : Bool) (deps : List Ctx) (passes : List RunPass) (ini : Nat → Nat → Bool) (log : List Event) :
    FlatPending (frameStart sepDS deps passes ini log).recd := by
  have hk := firstAnnounce_keeps sepDS passes (startCtx deps)
  intro t ht
  rw [show (frameStart sepDS deps passes ini log).recd.ctx.implicit = (firstAnnounce sepDS passes (startCtx deps)).implicit from rfl,
    hk.2, startCtx_implicit] at ht
  simp at ht

theorem gentle_of {sepDS : Bool} {fmt : Nat → Nat} {V : View → Prop} {passes : List RunPass} {G : GraphSt}
    {cached : Nat → Nat → Option RPass.PassObj} {en : Nat → Bool} {index : Nat → Nat} {f : Frame}
    (hO : Ordinary sepDS fmt V G en index passes f cached) : Gentle ⟨sepDS, en⟩ G index passes f :=
  ⟨fun p hp a ha v hv => hO.tidy.tidy.view _ (hO.tidy.attached v ⟨p, hp, a, ha, hv⟩).1, fun p hp => hO.tidy.layouts p hp,
    fun p hp va hva w hw => hO.tidy.tidy.view _ (touched_in (hO.tidy.actions p hp va hva).2.1 w hw),
    fun p r he hr => steady_kind hO.tidy (cached p.id) (enters_mem he) (hO.kind p (enters_mem he)) (hO.made p (enters_mem he))
      (hO.announced p r he) hr (enters_enabled he)⟩

theorem enters_views {env : Env} {G : GraphSt} {index : Nat → Nat} {q : RunPass} {r : Rec} :
    ∀ {ps : List RunPass} {f : Frame}, Enters env G index ps f q r → ∀ a ∈ q.images, ∃ v, a.img.view (index q.id) = some v
  | [], _, h => absurd h (by simp [Enters])
  | p :: next, f, h => by
    rcases h with ⟨rfl, -, h⟩ | ⟨f', -, h⟩
    · exact Settle.prepare_views h
    · exact enters_views h

theorem foldOpt_some {α β : Type} {f : β → α → Option β} : ∀ (as : List α) (b : β), (∀ a ∈ as, ∀ b, ∃ b', f b a = some b') →
    ∃ b', RPass.foldOpt f b as = some b'
  | [], b, _ => ⟨b, rfl⟩
  | a :: as, b, h => by
    obtain ⟨b1, e⟩ := h a (by simp) b
    unfold RPass.foldOpt
    rw [e]
    exact foldOpt_some as b1 fun x hx => h x (by simp [hx])

/-- If the attachments of a drawing pass have views, it draws. -/
theorem recordPass_some (sepDS : Bool) (G : GraphSt) (w h : Nat) {p : RunPass} {index : Nat}
    (hv : ∀ a ∈ p.images, ∃ v, a.img.view index = some v) (cached : Option RPass.PassObj) (draw : List Nat) (r : Rec) :
    ∃ o r', RPass.recordPass sepDS G w h p cached draw index r = some (o, r') := by
  have hfresh : ∃ x, ((RPass.create sepDS G p index r.ctx).bind fun oc => (RPass.area w h p oc.1).bind fun o =>
      (RPass.framebuffer p index o).map fun o => (o, true, oc.2)) = some x := by
    obtain ⟨oc, e1⟩ := foldOpt_some (f := RPass.createOne sepDS G p index) p.images ({}, r.ctx) (by
      intro a ha b
      obtain ⟨v, e⟩ := hv a ha
      unfold RPass.createOne
      rw [e]
      simp only
      split
      · split <;> exact ⟨_, rfl⟩
      · exact ⟨_, rfl⟩)
    have e1' : ∃ oc, RPass.create sepDS G p index r.ctx = some oc := by
      unfold RPass.create
      rw [e1]
      exact ⟨_, rfl⟩
    obtain ⟨oc, e1'⟩ := e1'
    obtain ⟨o, e2⟩ := foldOpt_some (f := RPass.areaOne) p.images { oc.1 with width := w, height := h, layers := 1 } (by
      intro a ha b
      obtain ⟨v, e⟩ := hv a ha
      have : ∃ v, a.img.view 0 = some v := by
        unfold ImgAttach.view at e ⊢
        cases hl : a.img.views with
        | nil => rw [hl] at e; simp at e
        | cons x xs => simp
      obtain ⟨v, e⟩ := this
      unfold RPass.areaOne
      rw [e]
      split <;> exact ⟨_, rfl⟩)
    have e3 : ∀ (as : List Attachment), (∀ a ∈ as, ∃ v, a.img.view index = some v) →
        ∃ vs, (as.mapM fun (a : Attachment) => a.img.view index) = some vs := by
      intro as
      induction as with
      | nil => intro _; exact ⟨[], rfl⟩
      | cons a as ih =>
        intro h
        obtain ⟨v, e⟩ := h a (by simp)
        obtain ⟨vs, es⟩ := ih fun x hx => h x (by simp [hx])
        exact ⟨v :: vs, by simp [List.mapM_cons, e, es]⟩
    obtain ⟨vs, e3⟩ := e3 (p.images.filter RPass.isTarget) fun a ha => hv a (List.mem_filter.1 ha).1
    refine ⟨({ o with views := vs }, true, oc.2), ?_⟩
    rw [e1', Option.bind_some]
    unfold RPass.area
    rw [e2, Option.bind_some]
    unfold RPass.framebuffer
    rw [e3]
    rfl
  have : ∃ x, RPass.initialise sepDS G w h p index cached r.ctx = some x := by
    unfold RPass.initialise
    simp only
    split
    · split
      · exact ⟨_, rfl⟩
      · exact hfresh
    · exact hfresh
  obtain ⟨x, e⟩ := this
  unfold RPass.recordPass
  rw [e]
  exact ⟨_, _, rfl⟩

/-! ### C93 -/

/-- The byte belongs to an image the pass has among its attachments: one it uses (sampled, storage, transfer, implicit), or a
target of a drawing pass. -/
def Handles (sepDS : Bool) (G : GraphSt) (p : RunPass) (index : Nat) (cached : Nat → Option RPass.PassObj) (c : Cell) : Prop :=
  Named p index c
  ∨ RPass.Renders sepDS G p cached ∧ RPass.Declares sepDS p
    ∧ ∃ a ∈ p.images, RPass.isTarget a = true ∧ ∃ v, a.img.view index = some v ∧ c.InView v

variable {sepDS : Bool} {fmt : Nat → Nat} {V : View → Prop} {g0 : Layouts} {G : GraphSt}

/-- C93 (partial: tidy views, passes of the library's kinds, and a pass without dependencies). A graph is compiled and
recorded. If pass `q` depends on pass `w`, directly or not, and both are enabled: the body of `w` runs before the one of `q`,
everything recorded before the body of `q` is executed before what it records, every image `q` uses is in the layout it asked
for when its body starts, and it finds in every image `w` has among its attachments what `w` left there, unless a command
recorded in between writes it, or a pass in between draws to it without loading and storing it. -/
theorem dependency_data_flows_partial {decl : List Sort.Pass} (hwf : Sort.WellFormed decl) (hroot : Sort.HasRoot decl)
    {make : Sort.Pass → RunPass} {passes : List RunPass}
    (hc : compiled make decl = .ok passes) (hmk : ∀ x ∈ decl, (make x).id = x.id)
    {cached : Nat → Nat → Option RPass.PassObj} {en : Nat → Bool} {index : Nat → Nat} {deps : List Ctx}
    {ini : Nat → Nat → Bool} {log : List Event}
    (hO : Ordinary sepDS fmt V G en index passes (frameStart sepDS deps passes ini log) cached)
    (hd : Defined (startCtx deps)) (hH : Honest fmt V g0 (startCtx deps) G)
    (hwell : Lib.EntersWell sepDS G en index passes (frameStart sepDS deps passes ini log) cached)
    {G' : GraphSt} {f : Frame} (e : record ⟨sepDS, en⟩ G deps index passes ini log = some (G', f))
    {w q : Sort.Pass} (hq : q ∈ decl) (hdep : DependsOn decl q w) (henw : en w.id = true) (henq : en q.id = true) :
    ∃ i j rw rq cs ds, i < j
      ∧ RPass.enteredRec ⟨sepDS, en⟩ G index passes (frameStart sepDS deps passes ini log) i = some rw
      ∧ RPass.enteredRec ⟨sepDS, en⟩ G index passes (frameStart sepDS deps passes ini log) j = some rq
      ∧ BodyGets ⟨sepDS, en⟩ G deps index passes ini log i (make w) rw
      ∧ BodyGets ⟨sepDS, en⟩ G deps index passes ini log j (make q) rq
      ∧ rq.cmds = ((make w).body (index w.id) rw).cmds ++ cs
      ∧ f.recd.cmds = ((make q).body (index q.id) rq).cmds ++ ds
      ∧ Ready sepDS fmt (execAll g0 rq.cmds) (make q) (index q.id)
      ∧ ∀ c, Handles sepDS G (make w) (index w.id) (cached w.id) c →
        ¬ MayLose en ((passes.take j).drop (i + 1)) c →
        ∀ dev M, (∀ x ∈ cs, ¬ Writes dev x c) →
          (steps dev M rq.cmds).image c = (steps dev M ((make w).body (index w.id) rw).cmds).image c := by
  obtain ⟨order, ho, rfl⟩ : ∃ order, Sort.compileOrder decl = .ok order ∧ passes = runnables make order := by
    unfold compiled at hc
    cases h : Sort.compileOrder decl with
    | error x => rw [h] at hc; simp [Except.map] at hc
    | ok order =>
      rw [h] at hc
      simp only [Except.map, Except.ok.injEq] at hc
      exact ⟨order, rfl, hc.symm⟩
  have hperm := Sort.compile_order_is_permutation decl order hwf ho
  have hfirst := Sort.deps_run_first_partial decl order hwf hroot ho
  have hn : (order.map Sort.Pass.addr).Nodup := (hperm.map _).nodup_iff.2 hwf.addrs
  obtain ⟨j, hj⟩ := List.mem_iff_getElem?.1 (hperm.symm.subset hq)
  obtain ⟨i, hij, hi⟩ := depends_before hn hperm hfirst hdep j hj
  have hi' : (runnables make order)[i]? = some (make w) := by simp [runnables, hi]
  have hj' : (runnables make order)[j]? = some (make q) := by simp [runnables, hj]
  have hidw := hmk w (hperm.subset (List.mem_of_getElem? hi))
  have hidq := hmk q hq
  have el : ∃ f', recordLoop ⟨sepDS, en⟩ G index (runnables make order) (frameStart sepDS deps (runnables make order) ini log) = some f' := by
    unfold record at e
    simp only at e
    split at e
    · simp at e
    · rename_i f1 e2
      exact ⟨f1, e2⟩
  obtain ⟨f', el⟩ := el
  obtain ⟨rw, hrw⟩ := entered_at _ _ _ el i _ hi' (by rw [hidw]; exact henw)
  obtain ⟨rq, hrq⟩ := entered_at _ _ _ el j _ hj' (by rw [hidq]; exact henq)
  obtain ⟨-, -, sp⟩ := steady_record hO e
  obtain ⟨x, hx, hEw, t1, t2, -⟩ := sp i rw hrw
  rw [hi'] at hx
  cases hx
  obtain ⟨x, hx, hEq, u1, u2, u3⟩ := sp j rq hrq
  rw [hj'] at hx
  cases hx
  obtain ⟨d1, -, -⟩ := t1.1 (start_defined hd ini log)
  obtain ⟨d2, m2, -⟩ := t2.1 d1
  obtain ⟨d3, -, -⟩ := u1.1 (start_defined hd ini log)
  obtain ⟨d4, -, -⟩ := u2.1 d3
  obtain ⟨-, -, ds, eds, -⟩ := u3.1 d4
  have hb := steady_between _ _ _ (gentle_of hO) (flat_start sepDS deps (runnables make order) ini log) el i j _ rw rq hij hi' hrw hrq
  obtain ⟨-, -, hpres⟩ := hb.1 d2
  obtain ⟨cs, ecs, -⟩ := id hpres
  obtain ⟨x, hgw⟩ := entered_is_given ⟨sepDS, en⟩ G deps index _ ini log i rw (entered_entersAt hrw)
  have := hgw.1
  rw [hi'] at this
  cases this
  obtain ⟨x, hgq⟩ := entered_is_given ⟨sepDS, en⟩ G deps index _ ini log j rq (entered_entersAt hrq)
  have := hgq.1
  rw [hj'] at this
  cases this
  rw [hidw] at ecs
  rw [hidq] at eds
  have hready := (ready_of_bodies hO.tidy en index deps hH ini log
    (Lib.bodies_keep hO.tidy cached hO.kind en index deps hH ini log hO.made hwell) (make q) rq hEq).2
  refine ⟨i, j, rw, rq, cs, ds, hij, hrw, hrq, hgw, hgq, ecs, eds, ?_, ?_⟩
  · intro a ha hm v hv
    rw [hidq] at hready
    exact (hready a ha hm v hv).1
  · intro c hh hl dev M hw
    have htr : Tracked c ((make w).body (index w.id) rw) := by
      rcases hh with hh | ⟨hR, hD, a, ha, hta, v, hv, hcv⟩
      · have := named_tracked hO hH hwell hEw (by rw [hidw]; exact hh)
        rw [hidw] at m2
        exact fun h => this (m2 _ _ _ h)
      · obtain ⟨wd, ht, draw, hbody⟩ := hR
        have hviews : ∀ a ∈ (make w).images, ∃ v, a.img.view (index w.id) = some v := by
          have := enters_views hEw
          rw [hidw] at this
          exact this
        obtain ⟨o, r', er⟩ := recordPass_some sepDS G wd ht hviews (cached w.id (index w.id)) draw rw
        have hmade := hO.made (make w) (List.mem_of_getElem? hi')
        rw [hidw] at hmade
        have := (steady_draws (en := en) hO.tidy (List.mem_of_getElem? hi') hD hmade er (by rw [hidw]; exact henw)).2
          a ha hta v hv c.layer c.level hcv.2
        rw [← hcv.1] at this
        unfold Tracked
        rw [hbody, er]
        exact this
    rw [hidw] at hpres
    rw [ecs, steps_append]
    exact kept_until hpres htr hl (by rw [ecs, List.append_nil]) dev hw _

/-! ### The hypotheses are met -/

/-- The graph of Library.lean as declared: sampling depends on mipmap generation, which depends on the copy; the passes are
created in another order. -/
def fSample : Sort.Pass := ⟨12, 3, [⟨11, 2⟩]⟩
def fMips : Sort.Pass := ⟨11, 2, [⟨10, 1⟩]⟩
def fCopy : Sort.Pass := ⟨10, 1, []⟩
def fDecl : List Sort.Pass := [fSample, fMips, fCopy]
def fMake (x : Sort.Pass) : RunPass := if x.id = 1 then Lib.eCopy else if x.id = 2 then Lib.eMips else Lib.eSample

theorem fOrder : Sort.compileOrder fDecl = .ok [fCopy, fMips, fSample] := by
  simp [Sort.compileOrder, Sort.sortPasses, fDecl, fCopy, fMips, fSample]
  rw [Sort.sortLoop]; simp [Sort.round, Sort.processPass, Sort.isSorted, Sort.insertBeforeFirst, Sort.insertAfterLast, Sort.dependsOn]
  rw [Sort.sortLoop]; simp [Sort.round, Sort.processPass, Sort.isSorted, Sort.insertBeforeFirst, Sort.insertAfterLast, Sort.dependsOn]
  rw [Sort.sortLoop]; simp

theorem fCompiled : compiled fMake fDecl = .ok Lib.ePasses := by
  unfold compiled
  rw [fOrder]
  rfl

set_option maxRecDepth 20000 in
/-- The sampling pass finds, in the first level, what the copy wrote, although mipmaps were generated in between. -/
theorem example_flow : ∃ G' f i j rw rq, compiled fMake fDecl = .ok Lib.ePasses ∧ i < j
    ∧ record ⟨false, fun _ => true⟩ xG [] (fun _ => 0) Lib.ePasses (fun _ _ => false) [] = some (G', f)
    ∧ BodyGets ⟨false, fun _ => true⟩ xG [] (fun _ => 0) Lib.ePasses (fun _ _ => false) [] i (fMake fCopy) rw
    ∧ BodyGets ⟨false, fun _ => true⟩ xG [] (fun _ => 0) Lib.ePasses (fun _ _ => false) [] j (fMake fSample) rq
    ∧ Ready false (fun _ => 37) (execAll (fun _ _ _ _ => 0) rq.cmds) (fMake fSample) 0
    ∧ ∀ dev M, (steps dev M rq.cmds).image ⟨2, 0, 0, 0, 5, 5, 0, 1⟩
      = (steps dev M ((fMake fCopy).body 0 rw).cmds).image ⟨2, 0, 0, 0, 5, 5, 0, 1⟩ := by
  have hO : Ordinary false (fun _ => 37) Lib.eV xG (fun _ => true) (fun _ => 0) Lib.ePasses
      (frameStart false [] Lib.ePasses (fun _ _ => false) []) Lib.noObj :=
    ⟨Lib.example_views, Lib.example_kinds, fun _ _ _ h => by simp [Lib.noObj] at h,
      fun p r he => (Lib.example_well p r he).2⟩
  have h : (record ⟨false, fun _ => true⟩ xG [] (fun _ => 0) Lib.ePasses (fun _ _ => false) []).isSome = true := by decide
  obtain ⟨⟨G', f⟩, e⟩ := Option.isSome_iff_exists.1 h
  obtain ⟨i, j, rw, rq, cs, ds, hij, ew, eq, bw, bq, ecs, -, hr, hk⟩ := dependency_data_flows_partial (decl := fDecl)
    (w := fCopy) (q := fSample) ⟨by decide, by decide, by decide⟩ ⟨fCopy, by simp [fDecl], rfl⟩ (make := fMake) fCompiled
    (by decide) hO empty_defined Lib.example_honest Lib.example_well e
    (by simp [fDecl]) (.through (m := fMips) (by simp [fDecl]) (List.mem_singleton.2 rfl) rfl
      (.direct (by simp [fDecl]) (List.mem_singleton.2 rfl) rfl)) rfl rfl
  refine ⟨G', f, i, j, rw, rq, fCompiled, hij, e, bw, bq, hr, fun dev M => ?_⟩
  have hi : i = 0 ∧ j = 2 := by
    have h1 := bw.1
    have h2 := bq.1
    have hlt := (List.getElem?_eq_some_iff.1 h2).1
    simp only [Lib.ePasses, List.length_cons, List.length_nil] at hlt
    have e1 : ∀ k : Nat, k < 3 → ((Lib.ePasses[k]?).map (·.id)) = some (k + 1) := by decide
    have h1 := congrArg (Option.map (·.id)) h1
    have h2 := congrArg (Option.map (·.id)) h2
    rw [e1 i (by omega)] at h1
    rw [e1 j (by omega)] at h2
    simp only [Option.map_some, Option.some.injEq] at h1 h2
    have a1 : (fMake fCopy).id = 1 := rfl
    have a2 : (fMake fSample).id = 3 := rfl
    omega
  obtain ⟨rfl, rfl⟩ := hi
  have hcs : ((RPass.enteredRec ⟨false, fun _ => true⟩ xG (fun _ => 0) Lib.ePasses
      (frameStart false [] Lib.ePasses (fun _ _ => false) []) 0).bind fun r =>
      (RPass.enteredRec ⟨false, fun _ => true⟩ xG (fun _ => 0) Lib.ePasses
      (frameStart false [] Lib.ePasses (fun _ _ => false) []) 2).map fun r' =>
        r'.cmds.drop (((fMake fCopy).body 0 r).cmds.length)) = some [.imageBarrier 2 ⟨1, 0, 1, 0, 1⟩ ⟨4096, 4096⟩ ⟨2048, 4096⟩ 7 6,
        .blitImage 2 6 ⟨1, 0, 1, 0, 1⟩ ⟨0, 0, 0, 64, 64, 1⟩ 2 7 ⟨1, 1, 1, 0, 1⟩ ⟨0, 0, 0, 32, 32, 1⟩ 1,
        .imageBarrier 2 ⟨1, 0, 1, 0, 1⟩ ⟨2048, 4096⟩ ⟨32, 128⟩ 6 5,
        .imageBarrier 2 ⟨1, 1, 1, 0, 1⟩ ⟨4096, 4096⟩ ⟨2048, 4096⟩ 7 6,
        .blitImage 2 6 ⟨1, 1, 1, 0, 1⟩ ⟨0, 0, 0, 32, 32, 1⟩ 2 7 ⟨1, 2, 1, 0, 1⟩ ⟨0, 0, 0, 16, 16, 1⟩ 1,
        .imageBarrier 2 ⟨1, 1, 1, 0, 1⟩ ⟨2048, 4096⟩ ⟨32, 128⟩ 6 5,
        .imageBarrier 2 ⟨1, 2, 1, 0, 1⟩ ⟨4096, 4096⟩ ⟨32, 128⟩ 7 5] := by decide
  rw [ew, eq] at hcs
  simp only [Option.bind_some, Option.map_some, Option.some.injEq] at hcs
  have : cs = rq.cmds.drop (((fMake fCopy).body 0 rw).cmds.length) := by rw [ecs]; simp
  refine hk _ (Or.inl ⟨ImageAdder.transferOutput.attach 1 0 [Lib.eDst], by simp [fMake, fCopy, Lib.eCopy, Lib.eCopy0], by decide,
    Lib.eDst, rfl, rfl, by decide⟩) ?_ dev M ?_
  · rintro ⟨q, hq, -, a, ha, ht, -⟩
    simp only [Lib.ePasses, List.take_succ_cons, List.take_zero, List.drop_succ_cons, List.drop_zero, List.mem_cons,
      List.not_mem_nil, or_false] at hq
    subst hq
    simp only [Lib.eMips, Lib.eMips0, List.mem_cons, List.not_mem_nil, or_false] at ha
    subst ha
    exact absurd ht (by decide)
  · rw [this, hcs]
    intro k hk
    simp only [List.mem_cons, List.not_mem_nil, or_false] at hk
    rcases hk with rfl | rfl | rfl | rfl | rfl | rfl | rfl <;> simp [Writes, Selects, Range.Has]

end Verif.Run
