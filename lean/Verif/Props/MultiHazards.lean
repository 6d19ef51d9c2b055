import Verif.Spec.MultiHazards
import Verif.Props.Multi
import Verif.Props.BufferHazards
import Verif.Props.Tables
/-
C99: uses of an image or a buffer by different graphs wait for each other.
-/
namespace Verif.Multi
open Verif.Rec Verif.Run Verif.Att Verif.Gpu

variable {sepDS : Bool} {fmt : Nat → Nat} {V : View → Prop}

theorem stream_append (newer older : List Ran) : stream older <+: stream (newer ++ older) := by
  induction newer with
  | nil => exact List.prefix_rfl
  | cons a newer ih => exact ih.trans (List.prefix_append _ _)

/-! ### Buffers -/

section Buffers
variable {b y : Nat}

/-- What a buffer is in once the states of the dependencies are imported: what the first one says, if no other one knows better. -/
theorem start_access {d : Ctx} {ds : List Ctx} (h : ∀ c ∈ ds, c.getAccess b ≠ bottom → d.getAccess b ≠ bottom) :
    (startCtx (d :: ds)).getAccess b = d.getAccess b := by
  have fold : ∀ (ds : List Ctx) (c : Ctx), (∀ x ∈ ds, x.getAccess b ≠ bottom → c.getAccess b ≠ bottom) →
      (ds.foldl Ctx.addStates c).getAccess b = c.getAccess b := by
    intro ds
    induction ds with
    | nil => intro c _; rfl
    | cons x ds ih =>
      intro c hc
      have h1 : (c.addStates x).getAccess b = c.getAccess b := by
        have hx := hc x (by simp)
        unfold Ctx.getAccess at hx ⊢
        show (match c.buffers b with | some s => some s | none => x.buffers b).getD bottom = _
        cases hb : c.buffers b with
        | some s => rfl
        | none =>
          rw [hb] at hx
          exact Classical.byContradiction fun hn => hx hn rfl
      rw [List.foldl_cons, ih _ (fun z hz => by rw [h1]; exact hc z (by simp [hz])), h1]
  have h0 : (Ctx.new.addStates d).getAccess b = d.getAccess b := rfl
  show (ds.foldl Ctx.addStates (Ctx.new.addStates d)).getAccess b = _
  rw [fold ds _ (by rw [h0]; exact h), h0]

theorem start_access_none {ds : List Ctx} (h : ∀ c ∈ ds, c = Ctx.new) : (startCtx ds).getAccess b = bottom := by
  cases ds with
  | nil => rfl
  | cons d ds =>
    rw [start_access fun c hc hn => absurd (by rw [h c (by simp [hc])]; rfl) hn, h d (by simp)]
    rfl

theorem bstate_or : ∀ (cs pre : List Cmd) (c0 : AccessState), (∀ q k post, pre ++ cs = q ++ k :: post → BHaz.Fine b y (BHaz.bstate b c0 q) k) →
    BHaz.bstate b c0 (pre ++ cs) = BHaz.bstate b c0 pre ∨ Haz.HasStage (BHaz.bstate b c0 (pre ++ cs))
  | [], pre, c0, _ => by simp
  | k :: cs, pre, c0, h => by
    have happ : pre ++ k :: cs = (pre ++ [k]) ++ cs := by simp
    have hk := h pre k cs rfl
    rw [happ]
    rcases bstate_or cs (pre ++ [k]) c0 (by rw [← happ]; exact h) with e | e
    · rw [e, BHaz.bstate_append]
      show BHaz.next b _ k = _ ∨ Haz.HasStage (BHaz.next b _ k)
      cases k with
      | bufferBarrier b' o n src dst =>
        by_cases hb : b' = b
        · subst hb
          right
          rw [show BHaz.next b' (BHaz.bstate b' c0 pre) (.bufferBarrier b' o n src dst) = dst from if_pos rfl]
          exact (hk.1 o n src dst rfl).2.1
        · exact Or.inl (if_neg hb)
      | _ => exact Or.inl rfl
    · exact Or.inr e

theorem stage_bottom {s : AccessState} (h : Haz.HasStage s) : s ≠ bottom := by
  rintro rfl
  exact absurd h (by decide)

/-- What is kept along a session. -/
structure BInv (b y : Nat) (h : List Ran) (W : World) : Prop where
  along : BHaz.Along b y bottom (stream h)
  empty : h = [] → ∀ n, (W.st n).final = Ctx.new
  last : ∀ a l, h = a :: l → (W.st a.job.graph).final = a.frame.recd.ctx ∧ a.frame.recd.ctx.getAccess b = BHaz.bstate b bottom (stream h)
    ∧ ∀ n, (W.st n).final.getAccess b ≠ bottom → a.frame.recd.ctx.getAccess b ≠ bottom

theorem along_append {c0 : AccessState} {xs ys : List Cmd} (h : BHaz.Along b y c0 xs) (h' : BHaz.Along b y (BHaz.bstate b c0 xs) ys) :
    BHaz.Along b y c0 (xs ++ ys) := by
  intro pre k post e
  rcases List.append_eq_append_iff.1 e with ⟨as, h1, h2⟩ | ⟨bs, h1, h2⟩
  · rw [h1, BHaz.bstate_append]
    exact h' as k post h2
  · cases bs with
    | nil =>
      simp only [List.append_nil, List.nil_append] at h1 h2
      rw [← h1, ← List.append_nil xs, BHaz.bstate_append]
      exact h' [] k post h2.symm
    | cons z zs =>
      simp only [List.cons_append, List.cons.injEq] at h2
      obtain ⟨rfl, rfl⟩ := h2
      exact h pre k zs h1

/-- What is found of the buffer at the start of the next run is what was left. -/
theorem start_left {h : List Ran} {W : World} {x : Job} (I : BInv b y h W) (hc : ∀ a l, h = a :: l → x.deps.head? = some a.job.graph) :
    (startCtx (W.finals x.deps)).getAccess b = BHaz.bstate b bottom (stream h) := by
  cases h with
  | nil =>
    refine start_access_none fun c hc => ?_
    obtain ⟨n, -, rfl⟩ := List.mem_map.1 hc
    exact I.empty rfl n
  | cons a l =>
    obtain ⟨l1, l2, l3⟩ := I.last a l rfl
    unfold World.finals
    cases hd : x.deps with
    | nil => have := hc a l rfl; rw [hd] at this; simp at this
    | cons d ds =>
      have := hc a l rfl
      rw [hd] at this
      simp only [List.head?_cons, Option.some.injEq] at this
      subst this
      rw [List.map_cons, start_access, l1]
      · exact l2
      · intro c hc hn
        obtain ⟨n, -, rfl⟩ := List.mem_map.1 hc
        rw [l1]
        exact l3 n hn

theorem run_kept {W W' : World} {x : Job} {f : Frame} (e : W.record sepDS x = some (W', f)) (hu : UsesWell sepDS b y ⟨x, W, f⟩) :
    BHaz.Kept b y ((startCtx (W.finals x.deps)).getAccess b) [] f.recd
    ∧ ∀ k r, RPass.enteredRec ⟨sepDS, x.enabled⟩ (W.st x.graph) x.index x.passes (Ran.first sepDS ⟨x, W, f⟩) k = some r →
      r.cmds <+: f.recd.cmds ∧ ∀ p a, x.passes[k]? = some p → UsesBuf p (x.index p.id) b a →
        BHaz.bstate b ((startCtx (W.finals x.deps)).getAccess b) r.cmds = wantsBuf p a := by
  obtain ⟨G', e1, -, -, -⟩ := record_eq e
  unfold Run.record at e1
  simp only at e1
  split at e1
  · simp at e1
  · rename_i f1 e2
    simp only [Option.some.injEq, Prod.mk.injEq] at e1
    obtain ⟨rfl, rfl⟩ := e1
    have h0 : BHaz.Kept b y ((startCtx (W.finals x.deps)).getAccess b) [] (Ran.first sepDS ⟨x, W, f1⟩).recd := by
      refine ⟨List.nil_prefix, ?_, BHaz.along_nil⟩
      unfold Ctx.getAccess
      show ((frameStart sepDS (W.finals x.deps) x.passes (W.initialised x.graph) (W.log x.graph)).recd.ctx.buffers b).getD _ = _
      rw [(Tables.dependency_states_in_frame sepDS (W.finals x.deps) x.passes (W.initialised x.graph) (W.log x.graph)).2]
      rfl
    exact BHaz.kept_loop x.passes [] _ f1 hu h0 e2

theorem buffers_inv {W0 : World} (hW0 : Fresh W0) {h : List Ran} {W : World} (hs : Session sepDS W0 h W)
    (hu : ∀ a ∈ h, UsesWell sepDS b y a) (hc : Chained h) : BInv b y h W := by
  induction hs with
  | start => exact ⟨BHaz.along_nil, fun _ n => (hW0 n).2, fun _ _ e => by simp at e⟩
  | @run h W W' x f s e ih =>
    have I := ih (fun a ha => hu a (by simp [ha])) (chained_part (newer := [_]) hc)
    have hst := start_left I (x := x) fun a l e => by subst e; exact hc.1
    obtain ⟨k, -⟩ := run_kept e (hu _ (by simp))
    rw [hst] at k
    obtain ⟨G', e1, e2, e3, e4⟩ := record_eq e
    refine ⟨along_append I.along k.along, fun e => by simp at e, ?_⟩
    intro a l hal
    simp only [List.cons.injEq] at hal
    obtain ⟨rfl, rfl⟩ := hal
    refine ⟨by rw [e4]; simp only [if_true, e2], ?_, ?_⟩
    · show f.recd.ctx.getAccess b = BHaz.bstate b bottom (stream h ++ f.recd.cmds)
      rw [BHaz.bstate_append]
      exact k.link
    · intro n hn
      show f.recd.ctx.getAccess b ≠ bottom
      rw [e4] at hn
      by_cases hx : n = x.graph
      · simp only [hx, if_true, e2] at hn
        exact hn
      · simp only [hx, if_false] at hn
        rw [k.link]
        rcases bstate_or (b := b) (y := y) f.recd.cmds [] _ (fun q z post e => k.along q z post e) with h1 | h1
        · rw [List.nil_append] at h1
          rw [h1]
          show BHaz.bstate b bottom (stream h) ≠ bottom
          cases h with
          | nil => exact absurd (by rw [I.empty rfl]; rfl) hn
          | cons a l =>
            obtain ⟨-, l2, l3⟩ := I.last a l rfl
            rw [← l2]
            exact l3 n hn
        · rw [List.nil_append] at h1
          exact stage_bottom h1

/-- C99 (partial: as C98). Graphs that share a buffer are run one after the other, in any order and any number of times, each
depending first on the one run just before. Any two uses of the buffer, by whatever graphs: the barriers given to the GPU between
them order the accesses, unless the accesses are the same and there is no barrier between them. -/
theorem chained_buffer_uses_ordered_partial {W0 : World} (hW0 : Fresh W0) {h : List Ran} {W : World} (hs : Session sepDS W0 h W)
    (hu : ∀ a ∈ h, UsesWell sepDS b y a) (hc : Chained h) {pre mid : List Cmd} {s t : AccessState}
    (h1 : BufferMoment sepDS b h pre s) (h2 : BufferMoment sepDS b h (pre ++ mid) t) :
    (s = t ∧ BHaz.barriers b y mid = []) ∨ Haz.Ordered s (BHaz.barriers b y mid) t := by
  have hA := (buffers_inv hW0 hs hu hc).along
  have key : ∀ {pre s}, BufferMoment sepDS b h pre s → pre <+: stream h ∧ BHaz.bstate b bottom pre = s ∧ Haz.HasStage s := by
    rintro _ _ ⟨newer, a, older, rfl, pre, s, hm⟩
    obtain ⟨W1, s1, e1, -⟩ := session_part hs
    have I := buffers_inv hW0 s1 (fun x hx => hu x (by simp [hx])) (chained_part (newer := [_]) (chained_part hc))
    have hst := start_left I (x := a.job) fun z l e => by
      have := chained_part hc
      rw [e] at this
      exact this.1
    have ha := hu a (by simp)
    obtain ⟨k1, k2⟩ := run_kept e1 ha
    rw [hst] at k1 k2
    have hpre : stream (a :: older) <+: stream (newer ++ a :: older) := stream_append _ _
    have sub : ∀ {q}, q <+: a.frame.recd.cmds → stream older ++ q <+: stream (newer ++ a :: older) := fun hq =>
      List.IsPrefix.trans ((List.prefix_append_right_inj _).2 hq) hpre
    cases hm with
    | transfer _ post x w hat hd =>
      refine ⟨sub (by rw [hat]; exact List.prefix_append _ _), ?_, ?_⟩
      · rw [BHaz.bstate_append]
        exact (k1.along pre x post hat).2 w hd
      · cases w <;> decide
    | pass k p r att hp he hub =>
      obtain ⟨u1, u2⟩ := k2 k r he
      refine ⟨sub u1, ?_, ha.stage p (List.mem_of_getElem? hp) att hub⟩
      rw [BHaz.bstate_append]
      exact u2 p att hp hub
  obtain ⟨-, s1, t1⟩ := key h1
  obtain ⟨p2, s2, t2⟩ := key h2
  obtain ⟨tl, htl⟩ := p2
  have hA' : ∀ q k post, pre ++ mid = q ++ k :: post → BHaz.Fine b y (BHaz.bstate b bottom q) k := fun q k post e =>
    hA q k (post ++ tl) (by rw [← htl, e]; simp)
  rcases BHaz.chain mid pre s s1 t1 hA' with ⟨c1, c2⟩ | c
  · exact Or.inl ⟨by rw [← c1]; exact s2, c2⟩
  · rw [s2] at c; exact Or.inr c

end Buffers

/-! ### Images -/

section Images
variable {i : Nat}

theorem start_well {ds : List Ctx} (h : ∀ d ∈ ds, Haz.MapWell i d.images) : Haz.MapWell i (startCtx ds).images := by
  intro l m s e
  obtain ⟨d, hd, e1⟩ := start_from (ds := ds) (i := i) (l := l) (m := m) (by rw [e]; simp)
  exact h d hd l m s (by rw [← e1]; exact e)

theorem moved_run {W W' : World} {x : Job} {f : Frame} (e : W.record sepDS x = some (W', f)) (hf : Fine sepDS fmt V ⟨x, W, f⟩)
    (hm : Moves sepDS i ⟨x, W, f⟩) (hin : ∀ n, Haz.MapWell i (W.st n).inputs) (hfin : ∀ n, Haz.MapWell i (W.st n).final.images) :
    Haz.Std i f.recd := by
  obtain ⟨G', e1, -, -, -⟩ := record_eq e
  exact (Haz.std_record hf.1 (Haz.OnlyMoved.mk hm (hin _) (hfin _)) (start_well fun d hd => by
    obtain ⟨n, -, rfl⟩ := List.mem_map.1 hd
    exact hfin n) e1).1

/-- All that is given to the GPU is as expected of an image that is only moved. -/
theorem images_inv {W0 : World} (hW0 : Fresh W0) {h : List Ran} {W : World} (hs : Session sepDS W0 h W)
    (hf : ∀ a ∈ h, Fine sepDS fmt V a) (hm : ∀ a ∈ h, Moves sepDS i a) :
    (∀ k ∈ stream h, Haz.CmdWell i k) ∧ (∀ n, Haz.MapWell i (W.st n).inputs) ∧ ∀ n, Haz.MapWell i (W.st n).final.images := by
  have hempty : Haz.MapWell i LayoutMap.empty := fun l m s e => by simp [LayoutMap.at, LayoutMap.empty] at e
  induction hs with
  | start => exact ⟨fun k hk => by simp [stream] at hk, fun n => by rw [(hW0 n).1]; exact hempty, fun n => by rw [(hW0 n).2]; exact hempty⟩
  | @run h W W' x f s e ih =>
    obtain ⟨I1, I2, I3⟩ := ih (fun a ha => hf a (by simp [ha])) (fun a ha => hm a (by simp [ha]))
    have hS := moved_run e (hf _ (by simp)) (hm _ (by simp)) I2 I3
    obtain ⟨G', e1, e2, e3, e4⟩ := record_eq e
    refine ⟨?_, ?_, ?_⟩
    · intro k hk
      rcases List.mem_append.1 (show k ∈ stream h ++ f.recd.cmds from hk) with hk | hk
      · exact I1 k hk
      · exact hS.cmds k hk
    · intro n
      rw [e4]
      by_cases hn : n = x.graph
      · simp only [hn, if_true, e3]; exact I2 _
      · simp only [hn, if_false]; exact I2 n
    · intro n
      rw [e4]
      by_cases hn : n = x.graph
      · simp only [hn, if_true, e2]; exact hS.tracked
      · simp only [hn, if_false]; exact I3 n

theorem entered_enabled {env : Env} {G : GraphSt} {index : Nat → Nat} : ∀ (ps : List RunPass) (f : Frame) (k : Nat) (r : Rec),
    RPass.enteredRec env G index ps f k = some r → ∃ p, ps[k]? = some p ∧ env.enabled p.id = true
  | [], f, k, r, h => by simp [RPass.enteredRec] at h
  | p :: ps, f, 0, r, h => by
    unfold RPass.enteredRec at h
    simp only at h
    split at h
    · exact ⟨p, rfl, by assumption⟩
    · simp at h
  | p :: ps, f, k + 1, r, h => by
    unfold RPass.enteredRec at h
    simp only at h
    obtain ⟨f', -, h⟩ := Option.bind_eq_some_iff.1 h
    obtain ⟨q, h1, h2⟩ := entered_enabled ps f' k r h
    exact ⟨q, by simpa using h1, h2⟩

theorem moment_prefix {W0 : World} (hW0 : Fresh W0) {h : List Ran} {W : World} (hs : Session sepDS W0 h W)
    (hf : ∀ a ∈ h, Fine sepDS fmt V a) (hc : Chained h) {asp l m : Nat} {pre : List Cmd} {s : AccessState}
    (hx : ImageMoment sepDS fmt i asp l m h pre s) : pre <+: stream h := by
  cases hx with
  | transfer newer a older runs pre post x w hat hd =>
    subst runs
    refine List.IsPrefix.trans ((List.prefix_append_right_inj _).2 ?_) (stream_append newer (a :: older))
    rw [hat]
    exact List.prefix_append _ _
  | pass _ _ hx =>
    obtain ⟨newer, a, older, rfl, k, p, r, att, hp, he, -, -, -, -⟩ := hx
    obtain ⟨W1, s1, e1, -⟩ := session_part hs
    obtain ⟨G', e2, -, -, -⟩ := record_eq e1
    have hd0 : Defined (startCtx (a.before.finals a.job.deps)) := start_at_defined fun d hd => by
      obtain ⟨n, -, rfl⟩ := List.mem_map.1 hd
      exact (chained_inv hW0 s1 (fun x hx => hf x (by simp [hx])) (chained_part (newer := [_]) (chained_part hc))).defined n
    obtain ⟨⟨cs, hcs, -⟩, -⟩ := (tracked_never_discarded_partial (hf a (by simp)).1 hd0 e2).2.2 k p r hp he
    exact List.IsPrefix.trans ((List.prefix_append_right_inj _).2 ⟨cs, hcs.symm⟩) (stream_append newer (a :: older))

/-- C99 (partial: as C97, for an image that is only transferred and sampled). Graphs that share an image are run one after the
other, in any order and any number of times, each depending first on the one run just before. Any two uses of a subresource of the
image, by whatever graphs, such that no barrier between them takes it from layout UNDEFINED: the barriers given to the GPU between
them order the accesses, unless the accesses are the same and there is no barrier between them. -/
theorem chained_image_uses_ordered_partial {W0 : World} (hW0 : Fresh W0) {h : List Ran} {W : World} (hs : Session sepDS W0 h W)
    (hf : ∀ a ∈ h, Fine sepDS fmt V a) (hm : ∀ a ∈ h, Moves sepDS i a) (hc : Chained h) {pre mid : List Cmd} {s t : AccessState}
    {asp l m : Nat} (h1 : ImageMoment sepDS fmt i asp l m h pre s) (h2 : ImageMoment sepDS fmt i asp l m h (pre ++ mid) t)
    (hn : ∀ k ∈ mid, ¬ Haz.Forgets i asp l m k) :
    (s = t ∧ Haz.barriers i asp l m mid = []) ∨ Haz.Ordered s (Haz.barriers i asp l m mid) t := by
  obtain ⟨hv, hR⟩ := chained_graphs_valid_partial hW0 hs hf hc (fun _ _ _ _ => 0)
  have hC := (images_inv hW0 hs hf hm).1
  have key : ∀ {pre s}, ImageMoment sepDS fmt i asp l m h pre s →
      ∃ u ∈ Haz.usual, u.state = s ∧ execAll (fun _ _ _ _ => 0) pre i asp l m = u.layout := by
    intro pre s hx
    cases hx with
    | transfer newer a older runs pre post x w hat hd =>
      have e : stream (a :: older) = (stream older ++ pre) ++ x :: post := by
        show stream older ++ a.frame.recd.cmds = _
        rw [hat, List.append_assoc]
      have hpre : stream (a :: older) <+: stream h := by rw [runs]; exact stream_append _ _
      obtain ⟨tl, htl⟩ := hpre
      rw [e] at htl
      have hv' := hv
      rw [← htl, List.append_assoc, streamValid_append] at hv'
      obtain ⟨u, hu, hus, hul⟩ := Haz.does_layout (hC x (by rw [← htl]; simp)) hv'.2.1 hd
      exact ⟨u, hu, hus, hul⟩
    | pass _ _ hx =>
      obtain ⟨newer, a, older, runs, k, p, r, att, hp, he, ha, hmv, hview, hasp⟩ := hx
      obtain ⟨q, hq, hE⟩ := RPass.enters_of he
      rw [hp] at hq
      cases hq
      obtain ⟨v, hvw, hvi, hl⟩ := hview
      have hr := hR newer a older runs p r hE att ha hmv v hvw asp l m (by rw [hvi]; exact hasp) hl
      rw [hvi] at hr
      subst runs
      exact ⟨_, Haz.accesses_usual ((hm a (by simp)).declared p (enters_mem hE) att ha v (view_mem hvw) hvi), rfl, hr⟩
  obtain ⟨u, hu, rfl, hul⟩ := key h1
  obtain ⟨u', hu', rfl, hul'⟩ := key h2
  obtain ⟨tl, htl⟩ := moment_prefix hW0 hs hf hc h2
  rw [← htl, List.append_assoc, streamValid_append, streamValid_append] at hv
  refine Haz.chain_to hv.2.1 (fun k hk => hC k (by rw [← htl]; simp [hk])) hn hu hul hu' ?_
  rw [← execAll_append]
  exact hul'

theorem stream_rest (newer older : List Ran) : ∃ rest, stream (newer ++ older) = stream older ++ rest
    ∧ ∀ k ∈ rest, ∃ x ∈ newer, k ∈ x.frame.recd.cmds := by
  induction newer with
  | nil => exact ⟨[], by simp, by simp⟩
  | cons a newer ih =>
    obtain ⟨rest, h1, h2⟩ := ih
    refine ⟨rest ++ a.frame.recd.cmds, ?_, ?_⟩
    · show stream (newer ++ older) ++ _ = _
      rw [h1, List.append_assoc]
    · intro k hk
      rcases List.mem_append.1 hk with hk | hk
      · obtain ⟨x, hx, hk⟩ := h2 k hk
        exact ⟨x, by simp [hx], hk⟩
      · exact ⟨a, by simp, hk⟩

/-- Once a pass used the image, no graph forgets it. -/
theorem chained_never_forgotten_partial {W0 : World} (hW0 : Fresh W0) {h : List Ran} {W : World} (hs : Session sepDS W0 h W)
    (hf : ∀ a ∈ h, Fine sepDS fmt V a) (hc : Chained h) {pre cs : List Cmd} {s : AccessState}
    {asp l m : Nat} (h1 : PassMoment sepDS fmt i asp l m h pre s) (hcs : stream h = pre ++ cs) : ∀ k ∈ cs, ¬ Haz.Forgets i asp l m k := by
  obtain ⟨newer, a, older, rfl, k, p, r, att, hu⟩ := h1
  obtain ⟨W1, s1, e1, s2⟩ := session_part hs
  have hf1 : ∀ x ∈ older, Fine sepDS fmt V x := fun x hx => hf x (by simp [hx])
  have hf2 : ∀ x ∈ a :: older, Fine sepDS fmt V x := fun x hx => hf x (by simp only [List.mem_append]; exact Or.inr hx)
  have hc2 := chained_part hc
  have hc1 := chained_part (newer := [_]) hc2
  have hin := fresh_whole (V := V) hW0
  have J := chained_inv hW0 s1 hf1 hc1
  have I := session_inv (g0 := fun _ _ _ _ => 0) hin.1 hin.2 s1 hf1 (chained_informed hW0 s1 hf1 hc1)
  have hH := honest_of I hin.1 (chained_informed (g0 := fun _ _ _ _ => 0) hW0 s2 hf2 hc2).1
  have hd0 : Defined (startCtx (a.before.finals a.job.deps)) := start_at_defined fun d hd => by
    obtain ⟨n, -, rfl⟩ := List.mem_map.1 hd
    exact J.defined n
  obtain ⟨G', e2, -, -, -⟩ := record_eq e1
  obtain ⟨hO, hW⟩ := hf a (by simp)
  obtain ⟨own, ho1, ho2⟩ := Haz.never_forgotten_partial hO hd0 hH hW e2 hu
  obtain ⟨rest, hr1, hr2⟩ := stream_rest newer (a :: older)
  have hcs' : cs = own ++ rest := by
    rw [hr1] at hcs
    have : stream older ++ a.frame.recd.cmds ++ rest = stream older ++ r.cmds ++ cs := hcs
    rw [ho1] at this
    simpa using this.symm
  subst hcs'
  obtain ⟨q, hq, hE⟩ := RPass.enters_of hu.entered
  have hen : a.job.enabled p.id = true := by
    obtain ⟨z, hz, hzen⟩ := entered_enabled _ _ _ _ hu.entered
    rw [hu.pass] at hz
    cases hz
    exact hzen
  have hk : a.knows i l m ≠ none := by
    obtain ⟨v, hv, hvi, hl⟩ := hu.view
    refine used_known_partial (c := ⟨i, asp, l, m, 0, 0, 0, 0⟩) hW0 s2 hf2 hc2 (List.mem_of_getElem? hu.pass) hen
      ⟨att, hu.attached, hu.moved, v, hv, ?_⟩
    exact ⟨hvi.symm, hl⟩
  intro c hcm
  rcases List.mem_append.1 hcm with hcm | hcm
  · exact ho2 c hcm
  · obtain ⟨x, hx, hxc⟩ := hr2 c hcm
    have hst := (chained_known (c := ⟨i, asp, l, m, 0, 0, 0, 0⟩) hW0 hs hf hc hk x hx).1
    obtain ⟨n1, n2, rfl⟩ := List.append_of_mem hx
    rw [List.append_assoc] at hs hc hf
    obtain ⟨W2, t1, t2, -⟩ := session_part hs
    have hcx := chained_part (newer := [_]) (chained_part hc)
    have Jx := chained_inv hW0 t1 (fun z hz => hf z (List.mem_append_right _ (List.mem_cons_of_mem _ hz))) hcx
    have hdx : Defined (startCtx (x.before.finals x.job.deps)) := start_at_defined fun d hd => by
      obtain ⟨n, -, rfl⟩ := List.mem_map.1 hd
      exact Jx.defined n
    obtain ⟨G2, e3, -, -, -⟩ := record_eq t2
    obtain ⟨⟨own', h3, h4⟩, -⟩ := tracked_never_discarded_partial (hf x (by simp)).1 hdx e3
    rw [show (frameStart sepDS (x.before.finals x.job.deps) x.job.passes (x.before.initialised x.job.graph) (x.before.log x.job.graph)).recd.cmds
      = [] from rfl, List.nil_append] at h3
    intro hfg
    cases c with
    | imageBarrier img rg src dst old new =>
      obtain ⟨g1, g2, g3⟩ := hfg
      subst g2
      refine (h4 (.imageBarrier img rg src dst old new) (by rw [← h3]; exact hxc) ⟨img, asp, l, m, 0, 0, 0, 0⟩ ?_ ⟨g1, rfl, g3⟩).1 trivial
      rw [show (frameStart sepDS (x.before.finals x.job.deps) x.job.passes (x.before.initialised x.job.graph) (x.before.log x.job.graph)).recd.ctx.images
        = (startCtx (x.before.finals x.job.deps)).images from (firstAnnounce_keeps sepDS x.job.passes (startCtx (x.before.finals x.job.deps))).1]
      exact hst
    | _ => exact hfg

/-- C99 (partial: as C97, for an image that is only transferred and sampled). Once a pass of some graph used the image, any two
uses of the subresource from then on, by whatever graphs, are ordered by the barriers given to the GPU between them, unless the
accesses are the same and there is no barrier between them. -/
theorem chained_uses_ordered_partial {W0 : World} (hW0 : Fresh W0) {h : List Ran} {W : World} (hs : Session sepDS W0 h W)
    (hf : ∀ a ∈ h, Fine sepDS fmt V a) (hm : ∀ a ∈ h, Moves sepDS i a) (hc : Chained h) {used pre mid : List Cmd} {u s t : AccessState}
    {asp l m : Nat} (h0 : PassMoment sepDS fmt i asp l m h used u) (h1 : ImageMoment sepDS fmt i asp l m h (used ++ pre) s)
    (h2 : ImageMoment sepDS fmt i asp l m h (used ++ pre ++ mid) t) :
    (s = t ∧ Haz.barriers i asp l m mid = []) ∨ Haz.Ordered s (Haz.barriers i asp l m mid) t := by
  refine chained_image_uses_ordered_partial hW0 hs hf hm hc h1 h2 ?_
  obtain ⟨tl, htl⟩ := moment_prefix hW0 hs hf hc h2
  intro k hk
  exact chained_never_forgotten_partial hW0 hs hf hc h0 (cs := pre ++ mid ++ tl) (by rw [← htl]; simp) k (by simp [hk])

end Images

/-! ### The hypotheses are met -/

section Buffers

/-- A graph writes buffer 7, another one reads it. -/
def bWrite (deps : List Nat) : Job := ⟨1, [BHaz.cPass 1 .outputStorage 7 0 64], deps, fun _ => true, fun _ => 0, fun _ _ => none⟩
def bRead (deps : List Nat) : Job := ⟨2, [BHaz.cPass 3 .inputStorage 7 0 64], deps, fun _ => true, fun _ => 0, fun _ _ => none⟩

theorem b_uses {x : Job} (hx : (∃ d, x = bWrite d) ∨ ∃ d, x = bRead d) (W : World) (f : Frame) : UsesWell false 7 5 ⟨x, W, f⟩ := by
  have key : ∃ m n, x.passes = [BHaz.cPass n m 7 0 64] ∧ x.index = (fun _ => 0) ∧ x.cached = (fun _ _ => none)
      ∧ (m = BufferAdder.outputStorage ∧ n = 1 ∨ m = BufferAdder.inputStorage ∧ n = 3) := by
    rcases hx with ⟨d, rfl⟩ | ⟨d, rfl⟩
    · exact ⟨.outputStorage, 1, rfl, rfl, rfl, Or.inl ⟨rfl, rfl⟩⟩
    · exact ⟨.inputStorage, 3, rfl, rfl, rfl, Or.inr ⟨rfl, rfl⟩⟩
  obtain ⟨m, n, hp, hi, hca, hmn⟩ := key
  unfold UsesWell
  simp only [hp, hi, hca]
  have one : ∀ p ∈ [BHaz.cPass n m 7 0 64], ∀ a, UsesBuf p 0 7 a → p = BHaz.cPass n m 7 0 64 ∧ a = m.attach n 0 [7] 0 0 64 := by
    rintro p hp a ⟨h1, -, -⟩
    rw [List.mem_singleton.1 hp] at h1 ⊢
    have h1 : a ∈ [m.attach n 0 [7] 0 0 64] := h1
    exact ⟨rfl, List.mem_singleton.1 h1⟩
  refine ⟨?_, ?_, ?_, ?_⟩
  · intro p hp a ha
    obtain ⟨rfl, rfl⟩ := one p hp a ha
    rcases hmn with ⟨rfl, rfl⟩ | ⟨rfl, rfl⟩ <;> decide
  · intro p hp a ha
    obtain ⟨rfl, rfl⟩ := one p hp a ha
    rcases hmn with ⟨rfl, rfl⟩ | ⟨rfl, rfl⟩ <;> decide
  · intro p hp a a' ha ha'
    rw [(one p hp a ha).2, (one p hp a' ha').2]
  · intro p hp
    rw [List.mem_singleton.1 hp]
    exact .uses fun r => ⟨[.work n], fun c hc => by rw [List.mem_singleton.1 hc]; trivial, rfl⟩

end Buffers

section Images

/-- An image, and its view. -/
def iView : View := ⟨12, ⟨2, 37, 1, 1, 64, 64, 1⟩, .d2, 37, ⟨Aspect.color, 0, 1, 0, 1⟩⟩
def iV : View → Prop := fun v => v = Lib.eSrc ∨ v = iView

/-- A pass that copies to the image, and a pass that samples it. -/
def pCopy0 : RunPass :=
  ⟨1, 1, false, Lib.transferState, [ImageAdder.transferInput.attach 1 0 [Lib.eSrc], ImageAdder.transferOutput.attach 1 0 [iView]], [], [],
    fun _ r => r⟩
def pCopy : RunPass :=
  { pCopy0 with body := fun index r => (Xfer.imageCopy ⟨false, fun _ => true⟩ pCopy0 ⟨64, 64, 1⟩ Layout.undefined index r).getD r }
def pSample : RunPass :=
  ⟨3, 1, false, Lib.eSample.state, [ImageAdder.sampled.attach 3 0 [iView]], [], [], fun _ r => r.emit (.work 3)⟩

/-- A graph copies to the image, another one samples it. -/
def iCopy (deps : List Nat) : Job := ⟨1, [pCopy], deps, fun _ => true, fun _ => 0, Lib.noObj⟩
def iSample (deps : List Nat) : Job := ⟨2, [pSample], deps, fun _ => true, fun _ => 0, Lib.noObj⟩

theorem i_key {x : Job} (hx : (∃ d, x = iCopy d) ∨ ∃ d, x = iSample d) :
    ∃ p, (p = pCopy ∨ p = pSample) ∧ x.passes = [p] ∧ x.cached = Lib.noObj := by
  rcases hx with ⟨d, rfl⟩ | ⟨d, rfl⟩
  · exact ⟨_, Or.inl rfl, rfl, rfl⟩
  · exact ⟨_, Or.inr rfl, rfl, rfl⟩

theorem i_images {p : RunPass} (hp : p = pCopy ∨ p = pSample) {a : Attachment} (ha : a ∈ p.images) :
    a = ImageAdder.transferInput.attach 1 0 [Lib.eSrc] ∨ a = ImageAdder.transferOutput.attach 1 0 [iView]
    ∨ a = ImageAdder.sampled.attach 3 0 [iView] := by
  rcases hp with rfl | rfl
  · simp only [pCopy, pCopy0, List.mem_cons, List.not_mem_nil, or_false] at ha
    rcases ha with h | h
    · exact Or.inl h
    · exact Or.inr (Or.inl h)
  · simp only [pSample, List.mem_cons, List.not_mem_nil, or_false] at ha
    exact Or.inr (Or.inr ha)

theorem i_actions {p : RunPass} (hp : p = pCopy ∨ p = pSample) : p.implicitActions = [] := by
  rcases hp with rfl | rfl <;> rfl

theorem i_tidy {p : RunPass} (hp : p = pCopy ∨ p = pSample) : TidyViews false (fun _ => 37) iV [p] := by
  refine ⟨⟨?_, ?_, ?_, ?_⟩, ?_, ?_, ?_, ?_, ?_⟩
  · rintro v (rfl | rfl) <;> rfl
  · rintro v (rfl | rfl) <;> decide
  · rintro v (rfl | rfl) <;> decide
  · rintro v w (rfl | rfl) (rfl | rfl)
    · exact Or.inr ⟨rfl, fun _ _ => Iff.rfl⟩
    · exact Or.inl (Or.inl (by decide))
    · exact Or.inl (Or.inl (by decide))
    · exact Or.inr ⟨rfl, fun _ _ => Iff.rfl⟩
  · rintro v w (rfl | rfl) (rfl | rfl) h
    · rfl
    · exact absurd h (by decide)
    · exact absurd h (by decide)
    · rfl
  · rintro x ⟨q, hq, a, ha, hx⟩
    rw [List.mem_singleton.1 hq] at ha
    have : x = Lib.eSrc ∨ x = iView := by
      rcases i_images hp ha with rfl | rfl | rfl
      · left; simpa [ImageAdder.attach, mkImage] using hx
      · right; simpa [ImageAdder.attach, mkImage] using hx
      · right; simpa [ImageAdder.attach, mkImage] using hx
    rcases this with rfl | rfl
    · exact ⟨Or.inl rfl, by decide⟩
    · exact ⟨Or.inr rfl, by decide⟩
  · intro q hq a ha _
    rw [List.mem_singleton.1 hq] at ha
    rcases i_images hp ha with rfl | rfl | rfl <;> decide
  · intro q hq index
    rw [List.mem_singleton.1 hq]
    rcases hp with rfl | rfl
    · refine List.pairwise_cons.2 ⟨?_, by simp⟩
      intro b hb v w hv hw
      simp only [List.mem_cons, List.not_mem_nil, or_false] at hb
      subst hb
      have h1 := view_mem hv
      have h2 := view_mem hw
      simp only [ImageAdder.attach, mkImage, List.mem_cons, List.not_mem_nil, or_false] at h1 h2
      subst h1; subst h2
      exact Or.inl (by decide)
    · simp [pSample]
  · intro q hq va hva
    rw [List.mem_singleton.1 hq, i_actions hp] at hva
    simp at hva

theorem i_fine {x : Job} (hx : (∃ d, x = iCopy d) ∨ ∃ d, x = iSample d) (W : World) (f : Frame) :
    Fine false (fun _ => 37) iV ⟨x, W, f⟩ := by
  obtain ⟨p, hp, hps, hca⟩ := i_key hx
  have hmip : ∀ G q, q ∈ [p] → ¬ ∃ ty output, Lib.MakesMipmaps false G q ty output := by
    rintro G q hq ⟨ty, output, hM⟩
    rw [List.mem_singleton.1 hq] at hM
    rcases hp with rfl | rfl
    · exact absurd ((hM.declared _ rfl).2 Lib.eSrc (by simp [ImageAdder.attach, mkImage])).2.2 (by decide)
    · exact absurd ((hM.declared _ rfl).2 iView (by simp [ImageAdder.attach, mkImage])).2.2 (by decide)
  have htar : ∀ q ∈ [p], ∀ a ∈ q.images, RPass.isTarget a = false := by
    intro q hq a ha
    rw [List.mem_singleton.1 hq] at ha
    rcases i_images hp ha with rfl | rfl | rfl <;> rfl
  unfold Fine
  simp only [hps, hca]
  refine ⟨⟨i_tidy hp, ?_, fun _ _ _ h => by simp [Lib.noObj] at h, fun _ _ he h => absurd h (hmip _ _ (enters_mem he))⟩, ?_⟩
  · intro q hq
    rw [List.mem_singleton.1 hq]
    rcases hp with rfl | rfl
    · refine .transfers (.imageCopy (fun _ => true) ⟨64, 64, 1⟩ Layout.undefined (fun _ _ => rfl) ?_)
      intro ab hab
      have : ab = (ImageAdder.transferInput.attach 1 0 [Lib.eSrc], ImageAdder.transferOutput.attach 1 0 [iView]) := by
        simpa [Xfer.pairs, pCopy, pCopy0] using hab
      subst this
      decide
    · exact .uses fun index r => ⟨[.work 3], by simp [BodyCall], rfl⟩
  · intro q r he
    refine ⟨fun _ => ⟨fun _ h => by simp [Lib.noObj] at h, ?_⟩, fun h => absurd h (hmip _ _ (enters_mem he))⟩
    intro a ha ht
    rw [htar q (enters_mem he) a ha] at ht
    simp at ht

theorem i_moves {x : Job} (hx : (∃ d, x = iCopy d) ∨ ∃ d, x = iSample d) {W : World} (hW : ∀ n, (W.st n).outputs = []) (f : Frame) :
    Moves false 2 ⟨x, W, f⟩ := by
  obtain ⟨p, hp, hps, hca⟩ := i_key hx
  unfold Moves
  simp only [hps, hca]
  refine ⟨?_, ?_, ?_, ?_, ?_⟩
  · intro q hq a ha ht
    rw [List.mem_singleton.1 hq] at ha
    rcases i_images hp ha with rfl | rfl | rfl <;> exact absurd ht (by decide)
  · intro q hq a ha v hv hi
    rw [List.mem_singleton.1 hq] at ha ⊢
    rcases hp with rfl | rfl
    · simp only [pCopy, pCopy0, List.mem_cons, List.not_mem_nil, or_false] at ha
      rcases ha with rfl | rfl <;> decide
    · simp only [pSample, List.mem_cons, List.not_mem_nil, or_false] at ha
      subst ha; decide
  · intro q hq va hva
    rw [List.mem_singleton.1 hq, i_actions hp] at hva
    simp at hva
  · intro q hq
    rw [List.mem_singleton.1 hq]
    rcases hp with rfl | rfl
    · exact .copies (fun _ => true) ⟨64, 64, 1⟩ Layout.undefined (fun _ _ => rfl) (fun _ => Or.inl rfl)
    · exact .uses fun index r => ⟨[.work 3], by simp [Haz.CallWell], rfl⟩
  · rw [hW]
    intro l m s h
    simp [Images.toMap, OMap.find, LayoutMap.at] at h

/-- The outputs a graph declares don't change. -/
theorem session_outputs {W0 : World} {h : List Ran} {W : World} (hs : Session sepDS W0 h W) :
    (∀ n, (W.st n).outputs = (W0.st n).outputs) ∧ ∀ a ∈ h, ∀ n, (a.before.st n).outputs = (W0.st n).outputs := by
  induction hs with
  | start => exact ⟨fun _ => rfl, fun a ha => by simp at ha⟩
  | @run h W W' x f s e ih =>
    refine ⟨fun n => ?_, fun a ha => ?_⟩
    · rw [← ih.1 n]
      unfold World.record at e
      obtain ⟨⟨G', f'⟩, e1, e2⟩ := Option.map_eq_some_iff.1 e
      simp only [Prod.mk.injEq] at e2
      obtain ⟨rfl, rfl⟩ := e2
      show (if n = x.graph then G' else W.st n).outputs = _
      by_cases hn : n = x.graph
      · rw [if_pos hn, hn]
        unfold Run.record at e1
        simp only at e1
        split at e1
        · simp at e1
        · simp only [Option.some.injEq, Prod.mk.injEq] at e1
          obtain ⟨rfl, rfl⟩ := e1
          rfl
      · rw [if_neg hn]
    · rcases List.mem_cons.1 ha with rfl | ha
      · exact ih.1
      · exact ih.2 a ha

end Images

/-- The commands of a run, and those before the body of its first pass. -/
def shape (a : Ran) : List Cmd × Option (List Cmd) :=
  (a.frame.recd.cmds, (RPass.enteredRec ⟨false, a.job.enabled⟩ (a.before.st a.job.graph) a.job.index a.job.passes (a.first false) 0).map (·.cmds))

/-- The barriers of the runs of these graphs. -/
def bBar (s t : AccessState) : Cmd := .bufferBarrier 7 0 64 s t
def iBar (i : Nat) (s t : AccessState) (old new : Nat) : Cmd := .imageBarrier i RPass.rng1 s t old new
def iMove : Cmd := .copyImage 1 6 RPass.rng1 2 7 RPass.rng1 64 64 1

theorem shaped {W0 : World} {xs : List Job} {ss : List (List Cmd × Option (List Cmd))}
    (e : (runAll W0 xs []).map (fun x => x.1.map shape) = some ss) :
    ∃ h W, Session false W0 h W ∧ h.map Ran.job = xs.reverse ∧ h.map shape = ss := by
  obtain ⟨⟨h, W⟩, e1, e2⟩ := Option.map_eq_some_iff.1 e
  have := runAll_jobs _ e1
  exact ⟨h, W, runAll_session _ .start e1, by simpa using this, e2⟩

theorem two_of {α : Type} {β : Type} {f : α → β} {l : List α} {x y : β} (h : l.map f = [x, y]) :
    ∃ a b, l = [a, b] ∧ f a = x ∧ f b = y := by
  match l, h with
  | [a, b], h => simp only [List.map_cons, List.map_nil, List.cons.injEq, and_true] at h; exact ⟨a, b, rfl, h.1, h.2⟩

theorem three_of {α : Type} {β : Type} {f : α → β} {l : List α} {x y z : β} (h : l.map f = [x, y, z]) :
    ∃ a b c, l = [a, b, c] ∧ f a = x ∧ f b = y ∧ f c = z := by
  match l, h with
  | [a, b, c], h => simp only [List.map_cons, List.map_nil, List.cons.injEq, and_true] at h; exact ⟨a, b, c, rfl, h.1, h.2.1, h.2.2⟩

theorem shape_entered {a : Ran} {cs es : List Cmd} (h : shape a = (cs, some es)) : a.frame.recd.cmds = cs ∧
    ∃ r, RPass.enteredRec ⟨false, a.job.enabled⟩ (a.before.st a.job.graph) a.job.index a.job.passes (a.first false) 0 = some r ∧ r.cmds = es := by
  simp only [shape, Prod.mk.injEq] at h
  obtain ⟨h1, h2⟩ := h
  obtain ⟨r, hr, h2⟩ := Option.map_eq_some_iff.1 h2
  exact ⟨h1, r, hr, h2⟩

def wr : AccessState := ⟨Access.shaderWrite, Stage.computeShader⟩
def rd : AccessState := ⟨Access.shaderRead, Stage.computeShader⟩

/-- The use of the buffer by the only pass of a run. -/
theorem b_moment {newer older : List Ran} {a : Ran} {d : List Nat} {cs es : List Cmd} (hs : shape a = (cs, some es)) :
    (a.job = bWrite d → BufferMoment false 7 (newer ++ a :: older) (stream older ++ es) wr)
    ∧ (a.job = bRead d → BufferMoment false 7 (newer ++ a :: older) (stream older ++ es) rd) := by
  obtain ⟨-, r, hr, rfl⟩ := shape_entered hs
  constructor
  · intro hj
    have m := BHaz.Moment.pass (b := 7) (cmds := a.frame.recd.cmds) 0 (BHaz.cPass 1 .outputStorage 7 0 64) r
      (BufferAdder.outputStorage.attach 1 0 [7] 0 0 64) (by rw [hj]; rfl) hr ⟨List.mem_singleton.2 rfl, by decide, by rw [hj]; rfl⟩
    exact .mk newer a older rfl _ _ m
  · intro hj
    have m := BHaz.Moment.pass (b := 7) (cmds := a.frame.recd.cmds) 0 (BHaz.cPass 3 .inputStorage 7 0 64) r
      (BufferAdder.inputStorage.attach 3 0 [7] 0 0 64) (by rw [hj]; rfl) hr ⟨List.mem_singleton.2 rfl, by decide, by rw [hj]; rfl⟩
    exact .mk newer a older rfl _ _ m

/-- A graph writes a buffer, another one reads it, and the first one writes it again: the read waits for the write, and the second
write for the read. -/
theorem example_buffer_chain : ∃ h W mid mid', Session false sW h W ∧ Fresh sW ∧ Chained h ∧ (∀ a ∈ h, UsesWell false 7 5 a)
    ∧ h.map Ran.job = [bWrite [2], bRead [1], bWrite []]
    ∧ BufferMoment false 7 h [bBar bottom wr] wr ∧ BufferMoment false 7 h ([bBar bottom wr] ++ mid) rd
    ∧ BufferMoment false 7 h ([bBar bottom wr] ++ mid ++ mid') wr
    ∧ Haz.Ordered wr (BHaz.barriers 7 5 mid) rd ∧ Haz.Ordered rd (BHaz.barriers 7 5 mid') wr := by
  obtain ⟨h, W, hs, hj, hsh⟩ := shaped (W0 := sW) (xs := [bWrite [], bRead [1], bWrite [2]])
    (ss := [([bBar rd wr, .work 1], some [bBar rd wr]), ([bBar wr rd, .work 3], some [bBar wr rd]),
      ([bBar bottom wr, .work 1], some [bBar bottom wr])]) (by decide +kernel)
  obtain ⟨c, b, a, rfl, hc, hb, ha⟩ := three_of hsh
  simp only [List.reverse_cons, List.reverse_nil, List.nil_append, List.cons_append, List.map_cons, List.map_nil, List.cons.injEq, and_true] at hj
  obtain ⟨jc, jb, ja⟩ := hj
  have fresh : Fresh sW := fun _ => ⟨rfl, rfl⟩
  have chain : Chained [c, b, a] := ⟨by rw [jc, jb]; rfl, by rw [jb, ja]; rfl, trivial⟩
  have uses : ∀ x ∈ [c, b, a], UsesWell false 7 5 x := by
    intro x hx
    refine b_uses (x := x.job) ?_ x.before x.frame
    simp only [List.mem_cons, List.not_mem_nil, or_false] at hx
    rcases hx with rfl | rfl | rfl
    · exact Or.inl ⟨_, jc⟩
    · exact Or.inr ⟨_, jb⟩
    · exact Or.inl ⟨_, ja⟩
  have m1 := (b_moment (newer := [c, b]) (older := []) ha).1 ja
  have m2 := (b_moment (newer := [c]) (older := [a]) hb).2 jb
  have m3 := (b_moment (newer := []) (older := [b, a]) hc).1 jc
  have ea : a.frame.recd.cmds = [bBar bottom wr, .work 1] := (shape_entered ha).1
  have eb : b.frame.recd.cmds = [bBar wr rd, .work 3] := (shape_entered hb).1
  have n1 : BufferMoment false 7 [c, b, a] [bBar bottom wr] wr := m1
  have n2 : BufferMoment false 7 [c, b, a] ([bBar bottom wr] ++ [.work 1, bBar wr rd]) rd := by
    have : stream [a] = [bBar bottom wr, .work 1] := by simp [stream, ea]
    rw [this] at m2
    exact m2
  have n3 : BufferMoment false 7 [c, b, a] ([bBar bottom wr] ++ [.work 1, bBar wr rd] ++ [.work 3, bBar rd wr]) wr := by
    have : stream [b, a] = [bBar bottom wr, .work 1, bBar wr rd, .work 3] := by simp [stream, ea, eb]
    rw [this] at m3
    exact m3
  refine ⟨_, W, _, _, hs, fresh, chain, uses, by simp [jc, jb, ja], n1, n2, n3, ?_, ?_⟩
  · exact (chained_buffer_uses_ordered_partial fresh hs uses chain n1 n2).resolve_left fun h => absurd h.2 (by decide)
  · exact (chained_buffer_uses_ordered_partial fresh hs uses chain n2 n3).resolve_left fun h => absurd h.2 (by decide)

/-- The dependency is needed: without it the graph that reads the buffer doesn't wait for what the other one wrote. -/
theorem untold_buffer_unordered : ∃ h W mid, Session false sW h W ∧ Fresh sW ∧ (∀ a ∈ h, UsesWell false 7 5 a)
    ∧ h.map Ran.job = [bRead [], bWrite []]
    ∧ BufferMoment false 7 h [bBar bottom wr] wr ∧ BufferMoment false 7 h ([bBar bottom wr] ++ mid) rd
    ∧ ¬ Haz.Ordered wr (BHaz.barriers 7 5 mid) rd := by
  obtain ⟨h, W, hs, hj, hsh⟩ := shaped (W0 := sW) (xs := [bWrite [], bRead []])
    (ss := [([bBar bottom rd, .work 3], some [bBar bottom rd]), ([bBar bottom wr, .work 1], some [bBar bottom wr])]) (by decide +kernel)
  obtain ⟨b, a, rfl, hb, ha⟩ := two_of hsh
  simp only [List.reverse_cons, List.reverse_nil, List.nil_append, List.cons_append, List.map_cons, List.map_nil, List.cons.injEq, and_true] at hj
  obtain ⟨jb, ja⟩ := hj
  have m1 := (b_moment (newer := [b]) (older := []) ha).1 ja
  have m2 := (b_moment (newer := []) (older := [a]) hb).2 jb
  have ea : a.frame.recd.cmds = [bBar bottom wr, .work 1] := (shape_entered ha).1
  have n2 : BufferMoment false 7 [b, a] ([bBar bottom wr] ++ [.work 1, bBar bottom rd]) rd := by
    have : stream [a] = [bBar bottom wr, .work 1] := by simp [stream, ea]
    rw [this] at m2
    exact m2
  refine ⟨_, W, _, hs, fun _ => ⟨rfl, rfl⟩, ?_, by simp [jb, ja], m1, n2, by decide⟩
  intro x hx
  refine b_uses (x := x.job) ?_ x.before x.frame
  simp only [List.mem_cons, List.not_mem_nil, or_false] at hx
  rcases hx with rfl | rfl
  · exact Or.inr ⟨_, jb⟩
  · exact Or.inl ⟨_, ja⟩

/-- A graph copies to an image, another one samples it, and the first one copies to it again: the sampling waits for the first copy,
and the second copy for the sampling. -/
theorem example_image_chain : ∃ h W pre mid mid', Session false sW h W ∧ Fresh sW ∧ Chained h ∧ (∀ a ∈ h, Fine false (fun _ => 37) iV a)
    ∧ (∀ a ∈ h, Moves false 2 a) ∧ h.map Ran.job = [iCopy [2], iSample [1], iCopy []]
    ∧ PassMoment false (fun _ => 37) 2 0 0 0 h pre Haz.transferWrite
    ∧ ImageMoment false (fun _ => 37) 2 0 0 0 h (pre ++ mid) Haz.sampling
    ∧ ImageMoment false (fun _ => 37) 2 0 0 0 h (pre ++ mid ++ mid') Haz.transferWrite
    ∧ Haz.Ordered Haz.transferWrite (Haz.barriers 2 0 0 0 mid) Haz.sampling
    ∧ Haz.Ordered Haz.sampling (Haz.barriers 2 0 0 0 mid') Haz.transferWrite := by
  obtain ⟨h, W, hs, hj, hsh⟩ := shaped (W0 := sW) (xs := [iCopy [], iSample [1], iCopy [2]])
    (ss := [([iBar 2 Haz.sampling Haz.transferWrite 5 7, iMove], some [iBar 2 Haz.sampling Haz.transferWrite 5 7]),
      ([iBar 2 Haz.transferWrite Haz.sampling 7 5, .work 3], some [iBar 2 Haz.transferWrite Haz.sampling 7 5]),
      ([iBar 1 ⟨0, 16384⟩ Haz.transferRead 0 6, iBar 2 ⟨0, 16384⟩ Haz.transferWrite 0 7, iMove],
        some [iBar 1 ⟨0, 16384⟩ Haz.transferRead 0 6, iBar 2 ⟨0, 16384⟩ Haz.transferWrite 0 7])]) (by decide +kernel)
  obtain ⟨c, b, a, rfl, hc, hb, ha⟩ := three_of hsh
  simp only [List.reverse_cons, List.reverse_nil, List.nil_append, List.cons_append, List.map_cons, List.map_nil, List.cons.injEq, and_true] at hj
  obtain ⟨jc, jb, ja⟩ := hj
  have fresh : Fresh sW := fun _ => ⟨rfl, rfl⟩
  have chain : Chained [c, b, a] := ⟨by rw [jc, jb]; rfl, by rw [jb, ja]; rfl, trivial⟩
  have kinds : ∀ x ∈ [c, b, a], (∃ d, x.job = iCopy d) ∨ ∃ d, x.job = iSample d := by
    intro x hx
    simp only [List.mem_cons, List.not_mem_nil, or_false] at hx
    rcases hx with rfl | rfl | rfl
    · exact Or.inl ⟨_, jc⟩
    · exact Or.inr ⟨_, jb⟩
    · exact Or.inl ⟨_, ja⟩
  have fine : ∀ x ∈ [c, b, a], Fine false (fun _ => 37) iV x := fun x hx => i_fine (kinds x hx) x.before x.frame
  have moves : ∀ x ∈ [c, b, a], Moves false 2 x := fun x hx =>
    i_moves (kinds x hx) (fun n => (session_outputs hs).2 x hx n) x.frame
  have ea := (shape_entered ha).1
  have eb := (shape_entered hb).1
  obtain ⟨-, ra, hra, ea'⟩ := shape_entered ha
  obtain ⟨-, rb, hrb, eb'⟩ := shape_entered hb
  have ec := (shape_entered hc).1
  have m1 : PassMoment false (fun _ => 37) 2 0 0 0 [c, b, a] (stream [] ++ ra.cmds) Haz.transferWrite :=
    .mk [c, b] a [] rfl 0 pCopy ra (ImageAdder.transferOutput.attach 1 0 [iView])
      ⟨by rw [ja]; rfl, hra, by simp [pCopy, pCopy0], by decide, ⟨iView, by rw [ja]; rfl, rfl, by decide⟩, by unfold HasAspect; decide⟩
  have m2 : PassMoment false (fun _ => 37) 2 0 0 0 [c, b, a] (stream [a] ++ rb.cmds) Haz.sampling :=
    .mk [c] b [a] rfl 0 pSample rb (ImageAdder.sampled.attach 3 0 [iView])
      ⟨by rw [jb]; rfl, hrb, by simp [pSample], by decide, ⟨iView, by rw [jb]; rfl, rfl, by decide⟩, by unfold HasAspect; decide⟩
  have m3 : ImageMoment false (fun _ => 37) 2 0 0 0 [c, b, a] (stream [b, a] ++ [iBar 2 Haz.sampling Haz.transferWrite 5 7]) (Haz.scope true) :=
    .transfer [] c [b, a] rfl _ [] iMove true ec ⟨rfl, by decide⟩
  have e2 : stream [a] ++ rb.cmds = stream [] ++ ra.cmds ++ [iMove, iBar 2 Haz.transferWrite Haz.sampling 7 5] := by
    simp [stream, ea, ea', eb']
  have e3 : stream [b, a] ++ [iBar 2 Haz.sampling Haz.transferWrite 5 7] = stream [] ++ ra.cmds
      ++ [iMove, iBar 2 Haz.transferWrite Haz.sampling 7 5] ++ [.work 3, iBar 2 Haz.sampling Haz.transferWrite 5 7] := by
    simp [stream, ea, eb, ea']
  rw [e2] at m2
  rw [e3] at m3
  refine ⟨_, W, _, _, _, hs, fresh, chain, fine, moves, by simp [jc, jb, ja], m1, .pass _ _ m2, m3, ?_, ?_⟩
  · have := chained_uses_ordered_partial (pre := []) (mid := [iMove, iBar 2 Haz.transferWrite Haz.sampling 7 5]) fresh hs fine moves chain m1 (by rw [List.append_nil]; exact .pass _ _ m1)
      (by rw [List.append_nil]; exact .pass _ _ m2)
    exact this.resolve_left fun h => absurd h.2 (by decide)
  · exact (chained_uses_ordered_partial fresh hs fine moves chain m1 (.pass _ _ m2) m3).resolve_left fun h => absurd h.2 (by decide)

end Verif.Multi
