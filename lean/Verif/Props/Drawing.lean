import Verif.Spec.Drawing
import Verif.Props.Pipeline
import Verif.Props.RenderPass
/-
C71, C72: the pipelines of the quad and mesh passes fit the render passes they are used in.
-/
namespace Verif.Pipe
open Verif.Att

/-! ### Which render pass the pipelines in the slots were made for -/

/-- Every pipeline of the holder was created with a render pass that `G` accepts for its slot. -/
def MadeWith (G : Nat → Nat → Prop) (s : St) : Prop :=
  ∀ (j h : Nat) (P : Pipeline), s.pipelines[j]? = some h → h ≠ 0 → (after Dev.empty s.evs).pipes h = some P →
    G j P.renderPass

theorem madeWith_initialise {pass is bs s d} (I : Inv pass is bs s d) {G} (h : MadeWith G s) :
    MadeWith G s.initialise := by
  obtain ⟨d', J, e⟩ := initialise_inv I
  obtain ⟨-, -, -, -, -, -, h1, -⟩ := initialise_keep s
  intro j x P hj h0 hP
  rw [h1] at hj
  rw [← J.dev, e, I.dev] at hP
  exact h j x P hj h0 hP

theorem madeWith_cleanup (G) (s : St) : MadeWith G s.cleanup := by
  intro j x P hj h0
  simp only [St.cleanup] at hj
  have := List.mem_of_getElem? hj
  simp only [List.mem_map] at this
  obtain ⟨_, _, e⟩ := this
  exact absurd e.symm h0

theorem madeWith_create {pass is bs s d} (I : Inv pass is bs s d) (hl : s.layout ≠ 0) {i rp : Nat} {s' : St}
    (h : s.createPipeline i rp = some s') {G : Nat → Nat → Prop} {j : Nat} (hj : s.slot i = some j) (hG : G j rp)
    (hM : ∀ (j' h : Nat) (P : Pipeline), j' ≠ j → s.pipelines[j']? = some h → h ≠ 0 → (after Dev.empty s.evs).pipes h = some P →
      G j' P.renderPass) : MadeWith G s' := by
  obtain ⟨d', p, k, J, hk, e1, e2, e3, -⟩ := createPipeline_inv I hl h
  rw [hj] at hk; cases hk
  intro j' x P hx h0 hP
  rw [← J.dev, e2] at hP
  rw [e3, List.getElem?_set] at hx
  split at hx
  · next e =>
    subst e
    split at hx
    · simp only [Option.some.injEq] at hx
      subst hx
      rw [upd_self] at hP
      simp only [Option.some.injEq] at hP
      subst hP
      exact hG
    · cases hx
  · next e =>
    have hne : x ≠ s.next := by
      intro e; subst e
      exact mem_pipes I (List.mem_of_getElem? hx) h0 (I.free s.next (by omega)).2.2.2.2
    rw [upd_ne hne] at hP
    exact hM j' x P (fun h => e h.symm) hx h0 (by rw [← I.dev]; exact hP)

theorem madeWith_createIfNone {pass is bs s d} (I : Inv pass is bs s d) (hl : s.layout ≠ 0) {i : Nat} {s' : St}
    (h : s.createIfNone i = some s') {G : Nat → Nat → Prop} (hG : ∀ j, s.slot i = some j → s.pipelines[j]? = some 0 → G j s.renderPass)
    (hM : MadeWith G s) : MadeWith G s' := by
  simp only [St.createIfNone, Option.bind_eq_bind, Option.bind_eq_some_iff] at h
  obtain ⟨k, hk, x, hx, h⟩ := h
  split at h
  · simp only [Option.pure_def, Option.some.injEq] at h
    subst h; exact hM
  · next h0 =>
    have h0 : x = 0 := by simpa using h0
    subst h0
    exact madeWith_create I hl h hk (hG k hk hx) fun j' y P _ a b c => hM j' y P a b c

theorem resetPipeline_evs {s s' : St} {p i : Nat} (h : s.resetPipeline p i = some s') : s'.evs = s.evs ∧ s'.next = s.next := by
  simp only [St.resetPipeline, Option.bind_eq_bind, Option.bind_eq_some_iff] at h
  generalize (if s.pipelines.length = 1 then 0 else i) = k at h
  obtain ⟨x, hx, h⟩ := h
  generalize ht : (if x ≠ 0 then { s with queue := s.queue ++ [x], pipelines := s.pipelines.set k 0 } else s) = t at h
  have e : t.evs = s.evs ∧ t.next = s.next := by
    subst ht
    split <;> exact ⟨rfl, rfl⟩
  split at h
  · split at h
    · simp only [Option.pure_def, Option.some.injEq] at h
      subst h
      exact e
    · cases h
  · simp only [Option.pure_def, Option.some.injEq] at h
    subst h
    exact e

/-- After `resetPipeline` the slot is empty, the others are as before. -/
theorem madeWith_reset {pass is bs s d} (I : Inv pass is bs s d) {p i : Nat} {s' : St} (h : s.resetPipeline p i = some s')
    {G : Nat → Nat → Prop}
    (hM : ∀ (j h : Nat) (P : Pipeline), s.slot i ≠ some j → s.pipelines[j]? = some h → h ≠ 0 →
      (after Dev.empty s.evs).pipes h = some P → G j P.renderPass) : MadeWith G s' := by
  obtain ⟨J, K, a1, a2, a3, a4⟩ := resetPipeline_keep I h
  intro j x P hj h0 hP
  rw [(resetPipeline_evs h).1] at hP
  rw [a3] at hj
  have hs : ∀ j, s.slot i = some j → (if s.programs.length = 1 then 0 else i) = j := fun j h => (slot_lt h).2.symm
  generalize (if s.programs.length = 1 then 0 else i) = k at hj hs
  rw [List.getElem?_set] at hj
  split at hj
  · split at hj
    · simp only [Option.some.injEq] at hj
      exact absurd hj.symm h0
    · cases hj
  · next e => exact hM j x P (fun h => e (hs j h)) hj h0 hP

theorem createPipeline_next {s s' : St} {i rp : Nat} (h : s.createPipeline i rp = some s') :
    s'.next = s.next + 1 ∧ s'.renderPass = s.renderPass ∧ s'.vertexBuffer = s.vertexBuffer ∧
      ∃ p l, s'.evs = s.evs ++ [.createPipe s.next p rp l] := by
  simp only [St.createPipeline, Option.bind_eq_bind, Option.bind_eq_some_iff, Prod.exists, Option.pure_def,
    Option.some.injEq] at h
  obtain ⟨p, t, hg, k, hk, h⟩ := h
  have e : t.next = s.next ∧ t.renderPass = s.renderPass ∧ t.vertexBuffer = s.vertexBuffer ∧ t.evs = s.evs := by
    simp only [St.getProgram, St.cacheProgram, Option.bind_eq_some_iff] at hg
    obtain ⟨u, hu, hg⟩ := hg
    have : u.next = s.next ∧ u.renderPass = s.renderPass ∧ u.vertexBuffer = s.vertexBuffer ∧ u.evs = s.evs := by
      split at hu
      · split at hu
        · simp only [Option.some.injEq] at hu
          subst hu; exact ⟨rfl, rfl, rfl, rfl⟩
        · cases hu
      · simp only [Option.some.injEq] at hu
        subst hu; exact ⟨rfl, rfl, rfl, rfl⟩
    have e : t = u := by
      split at hg
      all_goals
        simp only [Option.map_eq_some_iff, Prod.mk.injEq] at hg
        obtain ⟨_, _, _, rfl⟩ := hg
        rfl
    rw [e]; exact this
  subst h
  exact ⟨by simp only; rw [e.1], e.2.1, e.2.2.1, p, t.layout, by simp only; rw [e.2.2.2, e.1]⟩

/-- The creations among some calls are all with this render pass. -/
def OnlyWith (rp : Nat) (es : List Ev) : Prop := ∀ h p r l, .createPipe h p r l ∈ es → r = rp

theorem createIfNone_next {s s' : St} {i : Nat} (h : s.createIfNone i = some s') :
    s.next ≤ s'.next ∧ s'.renderPass = s.renderPass ∧ s'.vertexBuffer = s.vertexBuffer ∧
      ∃ es, s'.evs = s.evs ++ es ∧ OnlyWith s.renderPass es := by
  simp only [St.createIfNone, Option.bind_eq_bind, Option.bind_eq_some_iff] at h
  obtain ⟨k, hk, x, hx, h⟩ := h
  split at h
  · simp only [Option.pure_def, Option.some.injEq] at h
    subst h
    exact ⟨by omega, rfl, rfl, [], by simp, by intro _ _ _ _ h; cases h⟩
  · obtain ⟨a, b, c, p, l, e⟩ := createPipeline_next h
    refine ⟨by omega, b, c, _, e, ?_⟩
    intro h p r l hm
    simp at hm
    exact hm.2.2.1

/-- What else is known of a drawing pass. -/
structure Extra (k : Kind) (s : St) : Prop where
  lt : s.renderPass < s.next
  vb : k = .quad → s.vertexBuffer = false → s.layout = 0

theorem resetRenderPass_made {pass is bs s d} (I : Inv pass is bs s d) (hl : s.layout ≠ 0) {i rp : Nat} {s' : St}
    (h : s.resetRenderPass rp i = some s') {G : Nat → Nat → Prop} (hG : ∀ j, s.slot i = some j → G j rp)
    (hM : ∀ (j h : Nat) (P : Pipeline), s.slot i ≠ some j → s.pipelines[j]? = some h → h ≠ 0 →
      (after Dev.empty s.evs).pipes h = some P → G j P.renderPass) :
    MadeWith G s' ∧ s.next ≤ s'.next ∧ s'.renderPass = rp ∧ s'.vertexBuffer = s.vertexBuffer ∧
      ∃ es, s'.evs = s.evs ++ es ∧ OnlyWith rp es := by
  simp only [St.resetRenderPass, Option.bind_eq_bind, Option.bind_eq_some_iff] at h
  obtain ⟨t, ht, h⟩ := h
  obtain ⟨J, K, a1, a2, a3, a4⟩ := resetPipeline_keep I ht
  have hMt : MadeWith G { t with renderPass := rp } := madeWith_reset I ht hM
  have hsl : St.slot { t with renderPass := rp } = s.slot := K.slot
  obtain ⟨b1, b2, b3, es, b4, b5⟩ := createIfNone_next h
  refine ⟨madeWith_createIfNone (inv_irrelevant J t.vertexBuffer rp) (by simp only; rw [K.layout]; exact hl) h
    (fun j hj _ => hG j (by rw [← hsl]; exact hj)) hMt, ?_, b2, b3.trans K.vb, es, ?_, b5⟩
  · have := (resetPipeline_evs ht).2
    simp only at b1; omega
  · rw [b4]; simp only; rw [(resetPipeline_evs ht).1]

theorem initialise_next (s : St) : s.next ≤ s.initialise.next ∧ ∃ es, s.initialise.evs = s.evs ++ es ∧ ∀ rp, OnlyWith rp es := by
  simp only [St.initialise]
  split
  · refine ⟨by simp only; omega, _, rfl, ?_⟩
    intro rp h p r l hm
    simp at hm
  · exact ⟨by omega, [], by simp, fun _ _ _ _ _ h => by cases h⟩

theorem cleanup_evs (s : St) : ∃ es, s.cleanup.evs = s.evs ++ es ∧ ∀ rp, OnlyWith rp es := by
  refine ⟨_, by simp only [St.cleanup, List.append_assoc]; rfl, ?_⟩
  intro rp h p r l hm
  simp only [List.mem_append, List.mem_map] at hm
  rcases hm with hm | ⟨_, _, hm⟩ | hm | hm
  · split at hm <;> simp at hm
  · cases hm
  · split at hm <;> simp at hm
  · split at hm <;> simp at hm

theorem OnlyWith.append {rp a b} (ha : OnlyWith rp a) (hb : OnlyWith rp b) : OnlyWith rp (a ++ b) := by
  intro h p r l hm
  rcases List.mem_append.mp hm with hm | hm
  · exact ha h p r l hm
  · exact hb h p r l hm

/-- Preparing a drawing pass for an index: the pipeline of the slot is made for the new render pass. -/
theorem prepare_made {pass is bs s d} (I : Inv pass is bs s d) {k : Kind} {prepared : List Nat} (R : Ready k prepared s)
    (hk : k ≠ .compute) (E : Extra k s) {i : Nat} {s' : St} (h : s.prepare k i = some s') {G : Nat → Nat → Prop}
    (hG : ∀ j, s.slot i = some j → G j s.next)
    (hM : ∀ (j h : Nat) (P : Pipeline), s.slot i ≠ some j → s.pipelines[j]? = some h → h ≠ 0 →
      (after Dev.empty s.evs).pipes h = some P → G j P.renderPass) :
    MadeWith G s' ∧ s'.renderPass = s.next ∧ s.next < s'.next ∧ (k = .quad → s'.vertexBuffer = true) ∧
      ∃ es, s'.evs = s.evs ++ es ∧ OnlyWith s.next es := by
  have I0 := inv_next I (s.next + 1) (by omega)
  cases k with
  | compute => exact absurd rfl hk
  | quad =>
    simp only [St.prepare] at h
    split at h
    · next hv =>
      obtain ⟨i1, i2, i3, i4, i5, i6, i7, i8⟩ := initialise_keep { s with next := s.next + 1 }
      obtain ⟨n1, es1, n2, n3⟩ := initialise_next { s with next := s.next + 1 }
      obtain ⟨d1, J, -⟩ := noLeak_initialise I0
      obtain ⟨b1, b2, b3, es, b4, b5⟩ := createIfNone_next h
      have hz := (I.off (E.vb rfl hv)).2.2.2
      refine ⟨madeWith_createIfNone (inv_irrelevant J true s.next) (initialise_on _) h ?_ ?_, b2, ?_, fun _ => b3,
        es1 ++ es, ?_, (n3 _).append b5⟩
      · intro j hj _
        exact hG j ((congrFun i1 i).symm.trans hj)
      · intro j x P hx h0
        rw [show St.pipelines { (St.initialise { s with next := s.next + 1 }) with vertexBuffer := true, renderPass := s.next } =
          s.pipelines from i7] at hx
        exact absurd (hz x (List.mem_of_getElem? hx)) h0
      · simp only at n1 b1; omega
      · rw [b4]; simp only; rw [n2, List.append_assoc]
    · next hv =>
      have hl : s.layout ≠ 0 := R.vb (by simpa using hv)
      rw [Option.bind_eq_some_iff] at h
      obtain ⟨t, ht, h⟩ := h
      have hne : s.renderPass ≠ s.next := by have := E.lt; omega
      rw [if_pos hne] at ht
      obtain ⟨c1, c2, c3, c4, es, c5, c6⟩ := resetRenderPass_made I0 hl ht (G := G) hG hM
      obtain ⟨d1, J, l1, l2, -⟩ := resetRenderPass_keep I0 hl ht
      obtain ⟨b1, b2, b3, es', b4, b5⟩ := createIfNone_next h
      refine ⟨madeWith_createIfNone J l1 h ?_ c1, by rw [b2, c3], ?_, ?_, es ++ es', ?_, ?_⟩
      · intro j hj _
        rw [c3]; exact hG j (by rw [l2] at hj; exact hj)
      · simp only at c2; omega
      · intro _; rw [b3, c4]; simpa using hv
      · rw [b4, c5, List.append_assoc]
      · rw [c3] at b5; exact c6.append b5
  | mesh =>
    simp only [St.prepare] at h
    obtain ⟨d1, J1, -⟩ := noLeak_cleanup I0
    obtain ⟨c1, c2, c3, c4, c5, c6, c7⟩ := cleanup_keep { s with next := s.next + 1 }
    obtain ⟨d2, J2, -⟩ := noLeak_initialise J1
    obtain ⟨i1, i2, i3, i4, i5, i6, i7, i8⟩ := initialise_keep (St.cleanup { s with next := s.next + 1 })
    have hon := initialise_on (St.cleanup { s with next := s.next + 1 })
    obtain ⟨n1, es1, n2, n3⟩ := initialise_next (St.cleanup { s with next := s.next + 1 })
    obtain ⟨es0, m1, m2⟩ := cleanup_evs { s with next := s.next + 1 }
    have hMu : MadeWith G (St.cleanup { s with next := s.next + 1 }).initialise :=
      madeWith_initialise J1 (madeWith_cleanup G _)
    have hnx : s.next + 1 ≤ (St.cleanup { s with next := s.next + 1 }).initialise.next := n1
    have hes : (St.cleanup { s with next := s.next + 1 }).initialise.evs = s.evs ++ (es0 ++ es1) := by
      rw [n2, m1, List.append_assoc]
    generalize (St.cleanup { s with next := s.next + 1 }).initialise = u at h J2 i1 i2 i3 i4 i5 i6 i7 i8 hon hMu hnx hes
    have e1 : u.slot = s.slot := i1.trans c1
    have e2 : u.renderPass = s.renderPass := i6.trans c6
    split at h
    · obtain ⟨b1, b2, b3, es, b4, b5⟩ := createIfNone_next h
      refine ⟨madeWith_createIfNone (inv_irrelevant J2 u.vertexBuffer s.next) hon h ?_ hMu, b2, ?_, fun h => by simp at h,
        es0 ++ es1 ++ es, ?_, ((m2 _).append (n3 _)).append b5⟩
      · intro j hj _
        exact hG j (by rw [← e1]; exact hj)
      · simp only at b1; omega
      · rw [b4]; simp only; rw [hes, List.append_assoc]
    · rw [Option.bind_eq_some_iff] at h
      obtain ⟨t, ht, h⟩ := h
      have hne : u.renderPass ≠ s.next := by have := E.lt; omega
      rw [if_pos hne] at ht
      obtain ⟨q1, q2, q3, q4, es, q5, q6⟩ := resetRenderPass_made J2 hon ht (G := G)
        (fun j hj => hG j (by rw [← e1]; exact hj)) (fun j x P _ a b c => hMu j x P a b c)
      obtain ⟨d1, J, l1, l2, -⟩ := resetRenderPass_keep J2 hon ht
      obtain ⟨b1, b2, b3, es', b4, b5⟩ := createIfNone_next h
      refine ⟨madeWith_createIfNone J l1 h ?_ q1, by rw [b2, q3], by omega, fun h => by simp at h,
        es0 ++ es1 ++ (es ++ es'), ?_, ((m2 _).append (n3 _)).append ?_⟩
      · intro j hj _
        rw [q3]; exact hG j (by rw [l2, e1] at hj; exact hj)
      · rw [b4, q5, hes]; simp only [List.append_assoc]
      · rw [q3] at b5; exact q6.append b5

theorem recordInto_bind {pass is bs s d} (I : Inv pass is bs s d) (hl : s.layout ≠ 0) {i : Nat} {s' : St}
    (h : s.recordInto i = some s') : s'.pipelines = s.pipelines ∧ s.next ≤ s'.next ∧ s'.renderPass = s.renderPass ∧
      s'.vertexBuffer = s.vertexBuffer ∧ (after Dev.empty s'.evs).pipes = (after Dev.empty s.evs).pipes ∧
      (∃ es, s'.evs = s.evs ++ es ∧ ∀ rp, OnlyWith rp es) ∧
      ∃ j p x, s.slot i = some j ∧ s.pipelines[j]? = some p ∧ s'.evs.getLast? = some (.bind p s.layout x) := by
  simp only [St.recordInto, Option.bind_eq_bind, Option.bind_eq_some_iff, St.emit, Option.pure_def, Option.some.injEq] at h
  obtain ⟨t, ht, k, hk, p, hp, x, hx, h⟩ := h
  obtain ⟨d', J, K, a1, a2, a3, a4, a5, y, hy, hy0⟩ := createSet_keep I hl ht
  have key : s.next ≤ t.next ∧ ∃ es, t.evs = s.evs ++ es ∧ ∀ rp, OnlyWith rp es := by
    simp only [St.createDescriptorSet, Option.bind_eq_bind, Option.bind_eq_some_iff] at ht
    obtain ⟨x, hx, ht⟩ := ht
    split at ht
    · simp only [Option.pure_def, Option.some.injEq] at ht
      subst ht
      exact ⟨by omega, [], by simp, fun _ _ _ _ _ h => by cases h⟩
    · simp only [Option.bind_eq_some_iff, Option.pure_def, Option.some.injEq] at ht
      obtain ⟨ws, -, ht⟩ := ht
      subst ht
      refine ⟨by simp only; omega, _, rfl, ?_⟩
      intro rp h p r l hm
      simp at hm
  obtain ⟨k1, es, k2, k3⟩ := key
  subst h
  refine ⟨a3, k1, a1, K.vb, ?_, ⟨es ++ [.bind p t.layout x], by simp only; rw [k2, List.append_assoc], ?_⟩, k, p, x, ?_, ?_, ?_⟩
  · simp only
    rw [after_append, ← J.dev]
    show d'.pipes = _
    rw [a4, I.dev]
  · intro rp
    refine (k3 rp).append ?_
    intro h p r l hm
    simp at hm
  · rw [← K.slot]; exact hk
  · rw [← a3]; exact hp
  · simp [K.layout]

/-- Recording a drawing pass: what is in the slots, and what is bound. -/
theorem record_made {pass is bs s d} (I : Inv pass is bs s d) {k : Kind} {prepared : List Nat} (R : Ready k prepared s)
    (hk : k ≠ .compute) (E : Extra k s) {i : Nat} {fresh : Bool} (hL : i ∉ prepared → fresh = true) {s' : St}
    (h : exec k s (.record i fresh) = some s') {G : Nat → Nat → Prop}
    (hf : fresh = true → (∀ j, s.slot i = some j → G j s.next) ∧
      ∀ (j h : Nat) (P : Pipeline), s.slot i ≠ some j → s.pipelines[j]? = some h → h ≠ 0 →
        (after Dev.empty s.evs).pipes h = some P → G j P.renderPass)
    (hn : fresh = false → MadeWith G s ∧ ∀ j, s.slot i = some j → s.pipelines[j]? = some 0 → G j s.renderPass) :
    MadeWith G s' ∧ s'.renderPass = (if fresh then s.next else s.renderPass) ∧ Extra k s' ∧ s.next ≤ s'.next ∧
      (fresh = true → s.next < s'.next) ∧
      (∃ es, s'.evs = s.evs ++ es ∧ OnlyWith s'.renderPass es) ∧
      ∃ j p l x P, s.slot i = some j ∧ s'.evs.getLast? = some (.bind p l x) ∧
        (after Dev.empty s'.evs).pipes p = some P ∧ G j P.renderPass := by
  have hL' : if k = .compute then fresh = true ↔ i ∉ prepared else i ∉ prepared → fresh = true := by
    rw [if_neg hk]; exact hL
  obtain ⟨-, -, -, hslot, -, -, -, -, -, p0, x0, l0, j0, P0, z1, z2, z3, -⟩ := record_step I R hL' h
  obtain ⟨d', J', -, -, -, -, -, -, -, p0, x0, l0, j0, P0, z1, z2, z3, -⟩ := record_step I R hL' h
  simp only [exec, Option.bind_eq_some_iff, if_neg hk] at h
  obtain ⟨t, ht, u, hu, h⟩ := h
  have key : ∃ d1, Inv pass is bs t d1 ∧ t.layout ≠ 0 ∧ t.slot = s.slot ∧ MadeWith G t ∧
      t.renderPass = (if fresh then s.next else s.renderPass) ∧ s.next ≤ t.next ∧ (fresh = true → s.next < t.next) ∧
      t.renderPass < t.next ∧ (k = .quad → t.vertexBuffer = true) ∧
      (∃ es, t.evs = s.evs ++ es ∧ OnlyWith t.renderPass es) ∧
      ∀ j, s.slot i = some j → t.pipelines[j]? = some 0 → G j t.renderPass := by
    cases fresh with
    | true =>
      simp only [ite_true] at ht
      obtain ⟨g1, g2⟩ := hf rfl
      obtain ⟨a1, a2, a3, a4, es, a5, a6⟩ := prepare_made I R hk E ht g1 g2
      obtain ⟨d1, J, b1, b2, -⟩ := prepare_keep I R ht
      refine ⟨d1, J, b1, b2, a1, by simp [a2], by omega, fun _ => a3, by omega, a4, ⟨es, a5, by rw [a2]; exact a6⟩, ?_⟩
      intro j hj _
      rw [a2]; exact g1 j hj
    | false =>
      simp only [Bool.false_eq_true, ite_false, Option.some.injEq] at ht
      subst ht
      have hm : i ∈ prepared := by
        by_cases hm : i ∈ prepared
        · exact hm
        · have := hL hm; cases this
      have hl : s.layout ≠ 0 := R.on (by intro e; rw [e] at hm; cases hm)
      obtain ⟨g1, g2⟩ := hn rfl
      refine ⟨d, I, hl, rfl, g1, by simp, by omega, (by intro h; cases h), E.lt, ?_, ⟨[], by simp, by intro _ _ _ _ h; cases h⟩, g2⟩
      intro hq
      cases hv : s.vertexBuffer with
      | true => rfl
      | false => exact absurd (E.vb hq hv) hl
  obtain ⟨d1, J, b1, b2, b3, b4, b5, b6, b7, b8, ⟨es, b9, b10⟩, b11⟩ := key
  obtain ⟨d2, L, K, a1, a2, ⟨j, x, c1, c2, c3⟩, -⟩ := createIfNone_keep J b1 hu
  obtain ⟨n1, n2, n3, es', n4, n5⟩ := createIfNone_next hu
  have hMu : MadeWith G u := madeWith_createIfNone J b1 hu (fun j hj => b11 j (by rw [← b2]; exact hj)) b3
  have hul : u.layout ≠ 0 := by rw [K.layout]; exact b1
  obtain ⟨e1, e2, e3, e4, e5, ⟨es2, e6, e7⟩, j', p, x', e8, e9, e10⟩ := recordInto_bind L hul h
  have hM' : MadeWith G s' := by
    intro j x P hx h0 hP
    rw [e1] at hx
    rw [e5] at hP
    exact hMu j x P hx h0 hP
  have hrp : s'.renderPass = t.renderPass := by rw [e3, n2]
  have hslotu : s.slot i = some j' := by rw [← b2, ← K.slot]; exact e8
  have hpx : p ≠ 0 := by
    rw [K.slot, c1] at e8; cases e8
    rw [c2] at e9; cases e9
    exact c3
  rw [z1] at e10
  simp only [Option.some.injEq, Ev.bind.injEq] at e10
  obtain ⟨q1, -, -⟩ := e10
  rw [q1] at z3 z1
  have hP : (after Dev.empty s'.evs).pipes p = some P0 := by rw [← J'.dev]; exact z3
  refine ⟨hM', by rw [hrp, b4], ⟨by rw [hrp]; omega, ?_⟩, by omega, fun hf => by have := b6 hf; omega, ⟨es ++ es' ++ es2, ?_, ?_⟩,
    j', p, l0, x0, P0, hslotu, z1, hP, ?_⟩
  · intro hq hv
    rw [e4, n3, b8 hq] at hv
    cases hv
  · rw [e6, n4, b9]; simp only [List.append_assoc]
  · rw [hrp]
    exact (b10.append n5).append (e7 _)
  · exact hM' j' p P0 (by rw [e1]; exact e9) hpx hP

/-- `resetPipeline` of a drawing pass. -/
theorem reset_made {pass is bs s d} (I : Inv pass is bs s d) {k : Kind} {prepared : List Nat} (R : Ready k prepared s)
    (hk : k ≠ .compute) (E : Extra k s) (hp : prepared ≠ []) {p i : Nat} {s' : St}
    (h : exec k s (.reset p i) = some s') {G : Nat → Nat → Prop} (hM : MadeWith G s)
    (hG : s.renderPass ≠ 0 → ∀ j, s.slot i = some j → G j s.renderPass) :
    MadeWith G s' ∧ s'.renderPass = s.renderPass ∧ Extra k s' ∧ s.next ≤ s'.next ∧
      ∃ es, s'.evs = s.evs ++ es ∧ OnlyWith s.renderPass es := by
  simp only [exec, Option.bind_eq_some_iff, if_neg hk] at h
  obtain ⟨t, ht, h⟩ := h
  obtain ⟨J, K, a1, a2, a3, a4⟩ := resetPipeline_keep I ht
  obtain ⟨r1, r2⟩ := resetPipeline_evs ht
  have hMt : MadeWith G t := madeWith_reset I ht fun j x P _ a b c => hM j x P a b c
  have hl : t.layout ≠ 0 := by rw [K.layout]; exact R.on hp
  have hvb : k = .quad → t.vertexBuffer = true := by
    intro hq
    rw [K.vb]
    cases hv : s.vertexBuffer with
    | true => rfl
    | false => exact absurd (E.vb hq hv) (R.on hp)
  split at h
  · next h0 =>
    obtain ⟨b1, b2, b3, es, b4, b5⟩ := createIfNone_next h
    refine ⟨madeWith_createIfNone J hl h ?_ hMt, by rw [b2, a1], ⟨by rw [b2, a1]; have := E.lt; omega, ?_⟩, by omega, es,
      by rw [b4, r1], by rw [← a1]; exact b5⟩
    · intro j hj _
      rw [a1] at h0 ⊢
      exact hG h0 j (by rw [← K.slot]; exact hj)
    · intro hq hv
      rw [b3, hvb hq] at hv; cases hv
  · simp only [Option.some.injEq] at h
    subst h
    refine ⟨hMt, a1, ⟨by rw [a1, r2]; exact E.lt, ?_⟩, by omega, [], by simp [r1], by intro _ _ _ _ h; cases h⟩
    intro hq hv
    rw [hvb hq] at hv; cases hv

theorem run_made {pass is bs s d} (I : Inv pass is bs s d) {G : Nat → Nat → Prop} (hM : MadeWith G s) :
    MadeWith G { s with queue := [], evs := s.evs ++ s.queue.map .destroyPipe } := by
  obtain ⟨d', J, e⟩ := run_inv I
  intro j x P hx h0 hP
  rw [← J.dev, e] at hP
  simp only [Dev.without] at hP
  split at hP
  · cases hP
  · exact hM j x P hx h0 (by rw [← I.dev]; exact hP)

/-- The slots of these indices have a pipeline. -/
def Full (prepared : List Nat) (s : St) : Prop :=
  ∀ i ∈ prepared, ∀ j, s.slot i = some j → ∃ x, s.pipelines[j]? = some x ∧ x ≠ 0

theorem createIfNone_full {pass is bs s d} (I : Inv pass is bs s d) (hl : s.layout ≠ 0) {i : Nat} {s' : St}
    (h : s.createIfNone i = some s') {prepared : List Nat} (hF : ∀ i' ∈ prepared, s.slot i' ≠ s.slot i → ∀ j, s.slot i' = some j →
      ∃ x, s.pipelines[j]? = some x ∧ x ≠ 0) : Full (i :: prepared) s' := by
  obtain ⟨d', J, K, -, -, ⟨j0, x0, a1, a2, a3⟩, -⟩ := createIfNone_keep I hl h
  have keep : ∀ j x : Nat, s.pipelines[j]? = some x → x ≠ 0 → ∃ y, s'.pipelines[j]? = some y ∧ y ≠ 0 := by
    simp only [St.createIfNone, Option.bind_eq_bind, Option.bind_eq_some_iff] at h
    obtain ⟨k, hk, x, hx, h⟩ := h
    split at h
    · simp only [Option.pure_def, Option.some.injEq] at h
      subst h
      exact fun j x hx h0 => ⟨x, hx, h0⟩
    · obtain ⟨-, -, -, -, -, -, k1, -⟩ := createPipeline_keep I hl h
      exact k1
  intro i' hi' j hj
  rw [K.slot] at hj
  by_cases e : s.slot i' = s.slot i
  · rw [e, a1] at hj
    cases hj
    exact ⟨x0, a2, a3⟩
  · rcases List.mem_cons.mp hi' with rfl | hi'
    · exact absurd rfl e
    · obtain ⟨x, x1, x2⟩ := hF i' hi' e j hj
      exact keep j x x1 x2

theorem resetPipeline_full {pass is bs s d} (I : Inv pass is bs s d) {p i : Nat} {s' : St}
    (h : s.resetPipeline p i = some s') {prepared : List Nat} (hF : Full prepared s) (hi : ∃ j, s.slot i = some j) :
    ∀ i' ∈ prepared, s'.slot i' ≠ s'.slot i → ∀ j, s'.slot i' = some j → ∃ x, s'.pipelines[j]? = some x ∧ x ≠ 0 := by
  obtain ⟨J, K, a1, a2, a3, a4⟩ := resetPipeline_keep I h
  intro i' hi' hne j hj
  rw [K.slot] at hne hj
  obtain ⟨x, x1, x2⟩ := hF i' hi' j hj
  refine ⟨x, ?_, x2⟩
  obtain ⟨ji, hji⟩ := hi
  rw [a3, ← (slot_lt hji).2, List.getElem?_set_ne]
  · exact x1
  · intro e
    subst e
    exact hne (hj.trans hji.symm)

theorem reset_slot {s s' : St} {i rp : Nat} (h : s.resetRenderPass rp i = some s') :
    ∃ t, s.resetPipeline 0 i = some t ∧ St.createIfNone { t with renderPass := rp } i = some s' := by
  simp only [St.resetRenderPass, Option.bind_eq_bind, Option.bind_eq_some_iff] at h
  exact h

/-- Recording a quad pass leaves a pipeline in the slots of all the indices recorded. -/
theorem record_full {pass is bs s d} (I : Inv pass is bs s d) {prepared : List Nat} (R : Ready .quad prepared s)
    (E : Extra .quad s) {i : Nat} {fresh : Bool} (hL : i ∉ prepared → fresh = true) {s' : St}
    (h : exec .quad s (.record i fresh) = some s') (hF : Full prepared s) : Full (i :: prepared) s' := by
  obtain ⟨-, -, -, -, -, -, -, -, -, -, -, -, j0, -, -, hj0, -⟩ := record_step I R (by simpa using hL) h
  simp only [exec, Option.bind_eq_some_iff] at h
  obtain ⟨t, ht, u, hu, h⟩ := h
  rw [if_neg (by simp)] at hu
  have key : ∃ d1, Inv pass is bs t d1 ∧ t.layout ≠ 0 ∧ t.slot = s.slot ∧ Full prepared t := by
    cases fresh with
    | false =>
      simp only [Bool.false_eq_true, ite_false, Option.some.injEq] at ht
      subst ht
      have hm : i ∈ prepared := by
        by_cases hm : i ∈ prepared
        · exact hm
        · have := hL hm; cases this
      exact ⟨d, I, R.on (by intro e; rw [e] at hm; cases hm), rfl, hF⟩
    | true =>
      simp only [ite_true] at ht
      obtain ⟨d1, J, b1, b2, -⟩ := prepare_keep I R ht
      refine ⟨d1, J, b1, b2, ?_⟩
      have I0 := inv_next I (s.next + 1) (by omega)
      simp only [St.prepare] at ht
      split at ht
      · next hv =>
        have hz := (I.off (E.vb rfl hv)).2.2.2
        intro i' hi' j hj
        rw [b2] at hj
        obtain ⟨x, x1, x2⟩ := hF i' hi' j hj
        exact absurd (hz x (List.mem_of_getElem? x1)) x2
      · next hv =>
        have hl : s.layout ≠ 0 := R.vb (by simpa using hv)
        rw [Option.bind_eq_some_iff] at ht
        obtain ⟨v, hv, ht⟩ := ht
        rw [if_pos (by have := E.lt; omega)] at hv
        obtain ⟨d2, J2, l1, l2, -⟩ := resetRenderPass_keep I0 hl hv
        obtain ⟨y, y1, y2⟩ := reset_slot hv
        obtain ⟨J3, K, -⟩ := resetPipeline_keep I0 y1
        have f1 : Full (i :: prepared) v := createIfNone_full (inv_irrelevant J3 y.vertexBuffer s.next)
          (by simp only; rw [K.layout]; exact hl) y2 (resetPipeline_full I0 y1 hF ⟨j0, hj0⟩)
        have f2 : Full (i :: prepared) t := createIfNone_full J2 l1 ht
          (fun i' hi' _ j hj => f1 i' (List.mem_cons_of_mem _ hi') j hj)
        exact fun i' hi' => f2 i' (List.mem_cons_of_mem _ hi')
  obtain ⟨d1, J, b1, b2, b3⟩ := key
  have f3 : Full (i :: prepared) u := createIfNone_full J b1 hu (fun i' hi' _ j hj => b3 i' hi' j hj)
  obtain ⟨d2, L, K, -⟩ := createIfNone_keep J b1 hu
  obtain ⟨e1, -⟩ := recordInto_bind L (by rw [K.layout]; exact b1) h
  have hslot : s'.slot = u.slot := by
    simp only [St.recordInto, Option.bind_eq_bind, Option.bind_eq_some_iff, St.emit, Option.pure_def, Option.some.injEq] at h
    obtain ⟨y, hy, k, hk, p, hp, x, hx, rfl⟩ := h
    obtain ⟨_, _, K, _⟩ := createSet_keep L (by rw [K.layout]; exact b1) hy
    exact K.slot
  intro i' hi' j hj
  rw [hslot] at hj
  rw [e1]; exact f3 i' hi' j hj

theorem reset_full {pass is bs s d} (I : Inv pass is bs s d) {prepared : List Nat} (R : Ready .quad prepared s)
    (hp : prepared ≠ []) (h0 : s.renderPass ≠ 0) {q i : Nat} {s' : St} (h : exec .quad s (.reset q i) = some s')
    (hF : Full prepared s) : Full prepared s' := by
  simp only [exec, Option.bind_eq_some_iff] at h
  obtain ⟨t, ht, h⟩ := h
  rw [if_neg (by simp)] at h
  obtain ⟨J, K, a1, -⟩ := resetPipeline_keep I ht
  rw [if_pos (by rw [a1]; exact h0)] at h
  have hl : t.layout ≠ 0 := by rw [K.layout]; exact R.on hp
  have hj : ∃ j, s.slot i = some j := by
    obtain ⟨_, _, _, _, _, ⟨j, _, hj, _⟩, _⟩ := createIfNone_keep J hl h
    exact ⟨j, by rw [← K.slot]; exact hj⟩
  have := createIfNone_full J hl h (resetPipeline_full I ht hF hj)
  exact fun i' hi' => this i' (List.mem_cons_of_mem _ hi')

end Verif.Pipe

namespace Verif.Draw
open Verif.Rec Verif.Att Verif.Run

/-! ### The render passes of a pass are alike -/

/-- What two render pass objects of one pass share; `f`: their formats too. -/
structure Alike (f : Prop) (o o' : RPass.PassObj) : Prop where
  len : o.descs.length = o'.descs.length
  colours : o.colours = o'.colours
  depth : o.depth = o'.depth
  blends : o.blends = o'.blends
  formats : f → o.descs.map (·.format) = o'.descs.map (·.format)

theorem view_mem {a : Attachment} {i : Nat} {v : View} (h : a.img.view i = some v) : v ∈ a.img.views := by
  unfold ImgAttach.view at h
  split at h
  · exact List.mem_of_mem_head? h
  · exact List.mem_of_getElem? h

theorem createOne_alike {sepDS : Bool} {G G' : GraphSt} {p : RunPass} {i i' : Nat} {o o' : RPass.PassObj} {c c' : Ctx}
    {a : Attachment} {r r'} {f : Prop} (hf : f → ∀ v ∈ a.img.views, ∀ w ∈ a.img.views, v.format = w.format)
    (A : Alike f o o') (h : RPass.createOne sepDS G p i (o, c) a = some r)
    (h' : RPass.createOne sepDS G' p i' (o', c') a = some r') : Alike f r.1 r'.1 := by
  simp only [RPass.createOne] at h h'
  by_cases ht : RPass.isTarget a = true
  · rw [if_pos ht] at h h'
    split at h
    · cases h
    · next v hv =>
      split at h'
      · cases h'
      · next w hw =>
        have hfm : f → v.format = w.format := fun x => hf x v (view_mem hv) w (view_mem hw)
        by_cases hd : (RPass.isDepthAttach a || RPass.isStencilAttach a) = true
        · rw [if_pos hd] at h h'
          simp only [Option.some.injEq] at h h'
          subst h h'
          refine ⟨?_, A.colours, ?_, A.blends, ?_⟩
          · simp [RPass.addAttach, A.len]
          · simp [RPass.addAttach, A.len]
          · intro x
            simp only [RPass.addAttach, List.map_append, List.map_cons, List.map_nil]
            rw [A.formats x, hfm x]
        · rw [if_neg hd] at h h'
          simp only [Option.some.injEq] at h h'
          subst h h'
          refine ⟨?_, ?_, A.depth, ?_, ?_⟩
          · simp [RPass.addAttach, A.len]
          · simp [RPass.addAttach, A.len, A.colours]
          · simp [RPass.addAttach, A.blends]
          · intro x
            simp only [RPass.addAttach, List.map_append, List.map_cons, List.map_nil]
            rw [A.formats x, hfm x]
  · rw [if_neg ht] at h h'
    simp only [Option.some.injEq] at h h'
    subst h h'
    exact A

theorem fold_alike {sepDS : Bool} {G G' : GraphSt} {p : RunPass} {i i' : Nat} {f : Prop} : ∀ (l : List Attachment)
    (o o' : RPass.PassObj × Ctx) (r r' : RPass.PassObj × Ctx),
    (f → ∀ a ∈ l, ∀ v ∈ a.img.views, ∀ w ∈ a.img.views, v.format = w.format) →
    Alike f o.1 o'.1 → RPass.foldOpt (RPass.createOne sepDS G p i) o l = some r →
    RPass.foldOpt (RPass.createOne sepDS G' p i') o' l = some r' → Alike f r.1 r'.1
  | [], o, o', r, r', _, A, h, h' => by
    simp only [RPass.foldOpt, Option.some.injEq] at h h'
    subst h h'; exact A
  | a :: l, o, o', r, r', hf, A, h, h' => by
    simp only [RPass.foldOpt] at h h'
    split at h
    · cases h
    · next b hb =>
      split at h'
      · cases h'
      · next b' hb' =>
        exact fold_alike l b b' r r' (fun x a' ha' => hf x a' (by simp [ha']))
          (createOne_alike (fun x => hf x a (by simp)) A hb hb') h h'

theorem area_alike : ∀ (l : List Attachment) (o o' r r' : RPass.PassObj),
    o.width = o'.width → o.height = o'.height → o.layers = o'.layers → RPass.foldOpt RPass.areaOne o l = some r →
    RPass.foldOpt RPass.areaOne o' l = some r' → r.width = r'.width ∧ r.height = r'.height ∧ r.layers = r'.layers
  | [], o, o', r, r', h1, h2, h3, h, h' => by
    simp only [RPass.foldOpt, Option.some.injEq] at h h'
    subst h h'; exact ⟨h1, h2, h3⟩
  | a :: l, o, o', r, r', h1, h2, h3, h, h' => by
    simp only [RPass.foldOpt] at h h'
    split at h
    · cases h
    · next b hb =>
      split at h'
      · cases h'
      · next b' hb' =>
        simp only [RPass.areaOne] at hb hb'
        by_cases ht : RPass.isTarget a = true
        · rw [if_pos ht] at hb hb'
          rw [Option.map_eq_some_iff] at hb hb'
          obtain ⟨v, hv, rfl⟩ := hb
          obtain ⟨w, hw, rfl⟩ := hb'
          rw [hv] at hw; cases hw
          exact area_alike l _ _ r r' (by simp only [h1]) (by simp only [h2]) (by simp only [h3]) h h'
        · rw [if_neg ht] at hb hb'
          simp only [Option.some.injEq] at hb hb'
          subst hb hb'
          exact area_alike l _ _ r r' h1 h2 h3 h h'

/-- The render area does not touch what the render pass is created from. -/
theorem area_keeps : ∀ (l : List Attachment) (o r : RPass.PassObj), RPass.foldOpt RPass.areaOne o l = some r →
    r.descs = o.descs ∧ r.colours = o.colours ∧ r.depth = o.depth ∧ r.blends = o.blends ∧ r.deps = o.deps
  | [], o, r, h => by
    simp only [RPass.foldOpt, Option.some.injEq] at h
    subst h; exact ⟨rfl, rfl, rfl, rfl, rfl⟩
  | a :: l, o, r, h => by
    simp only [RPass.foldOpt] at h
    split at h
    · cases h
    · next b hb =>
      have := area_keeps l b r h
      simp only [RPass.areaOne] at hb
      split at hb
      · rw [Option.map_eq_some_iff] at hb
        obtain ⟨v, hv, rfl⟩ := hb
        exact this
      · simp only [Option.some.injEq] at hb
        subst hb; exact this

/-- Two render passes of one pass, made for any indices at any time. -/
theorem initialise_alike {sepDS : Bool} {G G' : GraphSt} {w h : Nat} {p : RunPass} {i i' : Nat} {c c' : Ctx} {f : Prop}
    {o o' : RPass.PassObj} {x x'} (hf : f → OneFormat p)
    (h1 : RPass.initialise sepDS G w h p i none c = some (o, x)) (h2 : RPass.initialise sepDS G' w h p i' none c' = some (o', x')) :
    Alike f o o' ∧ o.width = o'.width ∧ o.height = o'.height ∧ o.layers = o'.layers := by
  simp only [RPass.initialise, RPass.create, RPass.framebuffer, RPass.area, Option.bind_eq_some_iff, Option.map_eq_some_iff,
    Prod.mk.injEq] at h1 h2
  obtain ⟨oc, ⟨r, hr, rfl⟩, a, ha, o1, ⟨vs, -, rfl⟩, rfl, -⟩ := h1
  obtain ⟨oc', ⟨r', hr', rfl⟩, a', ha', o1', ⟨vs', -, rfl⟩, rfl, -⟩ := h2
  have A := fold_alike (f := f) p.images (_, c) (_, c') r r' (fun x => hf x) ⟨rfl, rfl, rfl, rfl, fun _ => rfl⟩ hr hr'
  obtain ⟨k1, k2, k3, k4, -⟩ := area_keeps p.images _ a ha
  obtain ⟨k1', k2', k3', k4', -⟩ := area_keeps p.images _ a' ha'
  have B : a.width = a'.width ∧ a.height = a'.height ∧ a.layers = a'.layers := by
    refine area_alike p.images _ _ a a' ?_ ?_ ?_ ha ha' <;> rfl
  refine ⟨⟨?_, ?_, ?_, ?_, ?_⟩, B⟩
  · simp only [k1, k1']; exact A.len
  · simp only [k2, k2']; exact A.colours
  · simp only [k3, k3']; exact A.depth
  · simp only [k4, k4']; exact A.blends
  · intro x; simp only [k1, k1']; exact A.formats x

theorem alike_references {o o' : RPass.PassObj} (A : Alike True o o') : SameReferences o o' := by
  have hr : ∀ r, refFormat o r = refFormat o' r := by
    intro r
    simp only [refFormat]
    rw [← List.getElem?_map, ← List.getElem?_map, A.formats trivial]
  have hr : refFormat o = refFormat o' := funext hr
  refine ⟨by rw [A.colours, hr], ?_⟩
  simp only [depthRef]
  rw [A.depth, hr]

/-! ### Histories of a drawing pass -/

/-- A drawing pass in order, recorded so far for the indices `prepared`. -/
structure DInv (k : Pipe.Kind) (sepDS : Bool) (w h : Nat) (p : RunPass) (pass : Nat) (is : List Pipe.AddImage)
    (bs : List Pipe.AddBuffer) (prepared : List Nat) (D : St) : Prop where
  inv : ∃ d, Pipe.Inv pass is bs D.pipe d
  ready : Pipe.Ready k prepared D.pipe
  extra : Pipe.Extra k D.pipe
  head : ∀ m, D.made.head? = some m → D.pipe.renderPass = m.handle
  prep : ∀ i, i ∈ prepared ↔ ∃ m ∈ D.made, m.index = i
  lt : ∀ m ∈ D.made, 0 < m.handle ∧ m.handle < D.pipe.next
  distinct : D.made.Pairwise fun a b => a.handle ≠ b.handle
  objs : ∀ m ∈ D.made, ∃ G c x, RPass.initialise sepDS G w h p m.index none c = some (m.obj, x)
  full : k = .quad → Pipe.Full prepared D.pipe

theorem dinv_new {k : Pipe.Kind} {sepDS : Bool} {w h : Nat} {p : RunPass} {pass : Nat} {is : List Pipe.AddImage}
    {bs : List Pipe.AddBuffer} {programs : List Nat} {creator : Option (Nat × (Nat → Nat))} {n : Nat}
    (hi : p.images = is.map (·.attach pass)) (hd : ((Pipe.promised is bs).map (·.1)).Nodup) (hn : 0 < n)
    (hs : (Pipe.promised is bs).length * n < 2 ^ 32) :
    DInv k sepDS w h p pass is bs [] (St.new p (bs.map (·.attach pass)) programs creator n) := by
  refine ⟨⟨Pipe.Dev.empty, ?_⟩, Pipe.new_ready .., ⟨by simp [St.new, Pipe.St.new], fun _ _ => rfl⟩, by simp [St.new], by simp [St.new],
    by simp [St.new], by simp [St.new], by simp [St.new], fun _ i hi => by cases hi⟩
  simp only [St.new]
  rw [hi]
  exact Pipe.new_inv pass is bs programs creator n hd hn hs

theorem current_mem {D : St} {i : Nat} {m : Made} (h : D.current i = some m) : m ∈ D.made ∧ m.index = i := by
  have h1 := List.mem_of_find?_eq_some h
  have h2 := List.find?_some h
  exact ⟨h1, by simpa using h2⟩

theorem current_none {D : St} {i : Nat} : D.current i = none ↔ ¬ ∃ m ∈ D.made, m.index = i := by
  simp only [St.current, List.find?_eq_none]
  simp

theorem object_of {D : St} (hp : D.made.Pairwise fun a b => a.handle ≠ b.handle) {m : Made} (hm : m ∈ D.made) :
    D.object m.handle = some m.obj := by
  simp only [St.object]
  revert hp hm
  generalize D.made = l
  intro hp hm
  induction l with
  | nil => cases hm
  | cons a l ih =>
    rw [List.pairwise_cons] at hp
    rcases List.mem_cons.mp hm with rfl | hm
    · simp
    · rw [List.find?_cons]
      have : (a.handle == m.handle) = false := by
        simp only [beq_eq_false_iff_ne]; exact hp.1 m hm
      rw [this]
      exact ih hp.2 hm

theorem initialise_fresh {sepDS : Bool} {G : GraphSt} {w h : Nat} {p : RunPass} {i : Nat} {cached : Option RPass.PassObj}
    {c : Ctx} {r} (H : RPass.initialise sepDS G w h p i cached c = some r) :
    (r.2.1 = true ∧ RPass.initialise sepDS G w h p i none c = some r) ∨ (r.2.1 = false ∧ cached = some r.1) := by
  have hnone : ∀ r, RPass.initialise sepDS G w h p i none c = some r → r.2.1 = true := by
    intro r hr
    simp only [RPass.initialise, Option.bind_eq_some_iff, Option.map_eq_some_iff] at hr
    obtain ⟨_, _, _, _, _, _, rfl⟩ := hr
    rfl
  cases cached with
  | none => exact Or.inl ⟨hnone r H, H⟩
  | some o =>
    simp only [RPass.initialise] at H
    split at H
    · simp only [Option.some.injEq] at H
      subst H
      exact Or.inr ⟨rfl, rfl⟩
    · have H' : RPass.initialise sepDS G w h p i none c = some r := by
        simp only [RPass.initialise]; exact H
      exact Or.inl ⟨hnone r H', H'⟩

/-- The pipeline slot of an index. -/
def slotOf (D : St) (i : Nat) : Nat := if D.pipe.programs.length = 1 then 0 else i

section
variable {k : Pipe.Kind} {sepDS : Bool} {w h : Nat} {p : RunPass} {pass : Nat} {is : List Pipe.AddImage}
  {bs : List Pipe.AddBuffer}

/-- Recording. `A`: which render passes a slot may have pipelines of. -/
theorem record_dinv (hk : k ≠ .compute) {prepared : List Nat} {D D' : St} (I : DInv k sepDS w h p pass is bs prepared D)
    {G : GraphSt} {c : Ctx} {i : Nat} (hx : exec k sepDS w h p D (.record G c i) = some D') (A : List Made → Nat → Nat → Prop)
    (hA : Pipe.MadeWith (A D.made) D.pipe)
    (hf : ∀ m, m.index = i → A (m :: D.made) (slotOf D i) m.handle ∧
      ∀ j r, j ≠ slotOf D i → A D.made j r → A (m :: D.made) j r)
    (hn : ∀ m, D.made.head? = some m → (∃ m' ∈ D.made, m'.index = i) → (D.pipe.slot i = some (slotOf D i) → D.pipe.pipelines[slotOf D i]? = some 0 → A D.made (slotOf D i) m.handle)) :
    DInv k sepDS w h p pass is bs (i :: prepared) D' ∧ Pipe.MadeWith (A D'.made) D'.pipe ∧
      D'.pipe.programs.length = D.pipe.programs.length ∧
      (∃ es, D'.pipe.evs = D.pipe.evs ++ es ∧ Pipe.OnlyWith D'.pipe.renderPass es) ∧
      (∃ m f x, D'.current i = some m ∧ RPass.initialise sepDS G w h p i ((D.current i).map (·.obj)) c = some (m.obj, f, x)) ∧
      (D'.made = D.made ∨ ∃ m, m.index = i ∧ D'.made = m :: D.made) ∧
      ∃ pipe layout set P, D'.pipe.evs.getLast? = some (.bind pipe layout set) ∧
        (Pipe.after Pipe.Dev.empty D'.pipe.evs).pipes pipe = some P ∧ A D'.made (slotOf D i) P.renderPass := by
  simp only [exec, Option.bind_eq_some_iff, Option.map_eq_some_iff] at hx
  obtain ⟨r, hr, s', hs, rfl⟩ := hx
  obtain ⟨d, J⟩ := I.inv
  have hslot : ∀ j, D.pipe.slot i = some j → j = slotOf D i := fun j hj => (Pipe.slot_lt hj).2
  have hL : i ∉ prepared → r.2.1 = true := by
    intro hi
    rcases initialise_fresh hr with ⟨h1, -⟩ | ⟨-, h1⟩
    · exact h1
    · exfalso
      apply hi
      rw [I.prep]
      rw [Option.map_eq_some_iff] at h1
      obtain ⟨m, hm, -⟩ := h1
      exact ⟨m, current_mem hm⟩
  obtain ⟨d', J', R', -, -, -, hprog, -⟩ := Pipe.record_step J I.ready (by rw [if_neg hk]; exact hL) hs
  have hfull : k = .quad → Pipe.Full (i :: prepared) s' := by
    intro hq
    subst hq
    exact Pipe.record_full J I.ready I.extra hL hs (I.full rfl)
  rcases initialise_fresh hr with ⟨h1, h2⟩ | ⟨h1, h2⟩
  · rw [h1] at hs
    obtain ⟨g1, g2⟩ := hf ⟨i, D.pipe.next, r.1⟩ rfl
    obtain ⟨q1, q2, q3, q4, q5, q6, j, pp, l, x, P, q7, q8, q9, q10⟩ := Pipe.record_made J I.ready hk I.extra (fun _ => rfl) hs
      (G := A (⟨i, D.pipe.next, r.1⟩ :: D.made))
      (fun _ => ⟨fun j hj => by rw [hslot j hj]; exact g1, fun j x P hj a b c => by
        by_cases e : j = slotOf D i
        · exfalso
          subst e
          apply hj
          obtain ⟨j', _, _, _, _, _, e8, _⟩ := Pipe.record_step J I.ready (by rw [if_neg hk]; exact fun _ => rfl) hs
          have : ∃ j, D.pipe.slot i = some j := by
            obtain ⟨_, _, _, _, _, _, _, _, _, _, _, _, j, _, _, e, _⟩ := Pipe.record_step J I.ready (by rw [if_neg hk]; exact fun _ => rfl) hs
            exact ⟨j, e⟩
          obtain ⟨j, hj⟩ := this
          rw [hj, hslot j hj]
        · exact g2 j _ e (hA j x P a b c)⟩)
      (fun h => by cases h)
    simp only [ite_true] at q2
    rw [if_pos h1]
    have hnx := J.next
    refine ⟨⟨⟨d', J'⟩, R', q3, ?_, ?_, ?_, ?_, ?_, hfull⟩, q1, hprog, q6, ⟨⟨i, D.pipe.next, r.1⟩, r.2.1, r.2.2, ?_, hr⟩,
      Or.inr ⟨_, rfl, rfl⟩, pp, l, x, P, q8, q9, ?_⟩
    · intro m hm
      simp only [List.head?_cons, Option.some.injEq] at hm
      subst hm; exact q2
    · intro i'
      simp only [List.mem_cons, I.prep, exists_eq_or_imp]
      constructor
      · rintro (h | h)
        · exact Or.inl h.symm
        · exact Or.inr h
      · rintro (h | h)
        · exact Or.inl h.symm
        · exact Or.inr h
    · intro m hm
      rcases List.mem_cons.mp hm with rfl | hm
      · exact ⟨hnx, q5 rfl⟩
      · have := I.lt m hm
        show 0 < m.handle ∧ m.handle < s'.next
        omega
    · simp only [List.pairwise_cons]
      refine ⟨?_, I.distinct⟩
      intro m hm
      have := (I.lt m hm).2
      show D.pipe.next ≠ m.handle
      omega
    · intro m hm
      rcases List.mem_cons.mp hm with rfl | hm
      · exact ⟨G, c, r.2, h2⟩
      · exact I.objs m hm
    · simp [St.current]
    · rw [← hslot j q7]; exact q10
  · rw [h1] at hs
    have hcur : ∃ m, D.current i = some m ∧ m.obj = r.1 := by
      rw [Option.map_eq_some_iff] at h2; exact h2
    obtain ⟨m, hm, hmo⟩ := hcur
    have hmem := current_mem hm
    obtain ⟨hd, hhd⟩ : ∃ hd, D.made.head? = some hd := by
      cases hmd : D.made with
      | nil => rw [hmd] at hmem; cases hmem.1
      | cons a l => exact ⟨a, rfl⟩
    have hrp := I.head hd hhd
    obtain ⟨q1, q2, q3, q4, q5, q6, j, pp, l, x, P, q7, q8, q9, q10⟩ := Pipe.record_made J I.ready hk I.extra
      (fun hi => by have := hL hi; rw [h1] at this; exact this) hs (G := A D.made) (fun h => by cases h)
      (fun _ => ⟨hA, fun j hj h0 => by
        have e := hslot j hj
        subst e
        rw [hrp]; exact hn hd hhd ⟨m, hmem⟩ hj h0⟩)
    simp only [Bool.false_eq_true, ite_false] at q2
    rw [if_neg (by rw [h1]; simp)]
    refine ⟨⟨⟨d', J'⟩, R', q3, ?_, ?_, ?_, I.distinct, I.objs, hfull⟩, q1, hprog, q6, ⟨m, r.2.1, r.2.2, hm, ?_⟩, Or.inl rfl,
      pp, l, x, P, q8, q9, ?_⟩
    · intro m hm; simp only; rw [q2]; exact I.head m hm
    · intro i'
      simp only [List.mem_cons]
      constructor
      · rintro (h | h)
        · exact ⟨m, hmem.1, by rw [hmem.2, h]⟩
        · exact (I.prep i').1 h
      · intro h; exact Or.inr ((I.prep i').2 h)
    · intro m hm; have := I.lt m hm; show 0 < m.handle ∧ m.handle < s'.next; omega
    · rw [hmo]; exact hr
    · rw [← hslot j q7]; exact q10

theorem reset_dinv (hk : k ≠ .compute) {prepared : List Nat} {D D' : St} (I : DInv k sepDS w h p pass is bs prepared D)
    (hp : prepared ≠ []) {q i : Nat} (hx : exec k sepDS w h p D (.reset q i) = some D') (A : List Made → Nat → Nat → Prop)
    (hA : Pipe.MadeWith (A D.made) D.pipe) (hr : ∀ m, D.made.head? = some m → A D.made (slotOf D i) m.handle) :
    DInv k sepDS w h p pass is bs prepared D' ∧ Pipe.MadeWith (A D'.made) D'.pipe ∧
      D'.pipe.programs.length = D.pipe.programs.length ∧ D'.made = D.made ∧
      ∃ es, D'.pipe.evs = D.pipe.evs ++ es ∧ Pipe.OnlyWith D'.pipe.renderPass es := by
  simp only [exec, Option.map_eq_some_iff] at hx
  obtain ⟨s', hs, rfl⟩ := hx
  obtain ⟨d, J⟩ := I.inv
  obtain ⟨d', J', R', -, -, -, hprog, -⟩ := Pipe.reset_step J I.ready hp hs
  obtain ⟨hd, hhd⟩ : ∃ hd, D.made.head? = some hd := by
    cases hmd : D.made with
    | nil =>
      obtain ⟨i, hi⟩ := List.exists_mem_of_ne_nil _ hp
      rw [I.prep, hmd] at hi
      obtain ⟨_, h, _⟩ := hi
      cases h
    | cons a l => exact ⟨a, rfl⟩
  obtain ⟨q1, q2, q3, q4, es, q5, q6⟩ := Pipe.reset_made J I.ready hk I.extra hp hs hA (fun _ j hj => by
    rw [I.head hd hhd, (Pipe.slot_lt hj).2]; exact hr hd hhd)
  have hfull : k = .quad → Pipe.Full prepared s' := by
    intro hq
    subst hq
    refine Pipe.reset_full J I.ready hp ?_ hs (I.full rfl)
    rw [I.head hd hhd]
    have := (I.lt hd (List.mem_of_mem_head? hhd)).1
    omega
  refine ⟨⟨⟨d', J'⟩, R', q3, ?_, I.prep, ?_, I.distinct, I.objs, hfull⟩, q1, hprog, rfl, es, q5, ?_⟩
  · intro m hm; simp only; rw [q2]; exact I.head m hm
  · intro m hm; have := I.lt m hm; show 0 < m.handle ∧ m.handle < s'.next; omega
  · simp only; rw [q2]; exact q6

theorem run_dinv {prepared : List Nat} {D D' : St} (I : DInv k sepDS w h p pass is bs prepared D)
    (hx : exec k sepDS w h p D .run = some D') (A : List Made → Nat → Nat → Prop) (hA : Pipe.MadeWith (A D.made) D.pipe) :
    DInv k sepDS w h p pass is bs prepared D' ∧ Pipe.MadeWith (A D'.made) D'.pipe ∧
      D'.pipe.programs.length = D.pipe.programs.length ∧ D'.made = D.made ∧
      ∃ es, D'.pipe.evs = D.pipe.evs ++ es ∧ Pipe.OnlyWith D'.pipe.renderPass es := by
  simp only [exec, Pipe.exec, Option.map_some, Option.some.injEq] at hx
  obtain ⟨d, J⟩ := I.inv
  obtain ⟨d', J', -⟩ := Pipe.run_step J
  subst hx
  refine ⟨⟨⟨d', J'⟩, ⟨I.ready.on, I.ready.rp, I.ready.vb, I.ready.slots⟩, ⟨I.extra.lt, I.extra.vb⟩, I.head, I.prep, I.lt,
    I.distinct, I.objs, I.full⟩, Pipe.run_made J hA, rfl, rfl, _, rfl, ?_⟩
  intro h p r l hm
  simp at hm

/-- What an acceptance `A` of render passes must satisfy along the operations that `Q` allows. -/
structure Accepts (k : Pipe.Kind) (single : Bool) (A : List Made → Nat → Nat → Prop) (Q : List Made → Op → Prop) : Prop where
  fresh : ∀ made G c i m, Q made (.record G c i) → m.index = i → A (m :: made) (if single then 0 else i) m.handle ∧
      ∀ j r, j ≠ (if single then 0 else i) → A made j r → A (m :: made) j r
  again : ∀ made G c i m, Q made (.record G c i) → made.head? = some m → (k = .quad → False) →
    A made (if single then 0 else i) m.handle
  reset : ∀ made q i m, Q made (.reset q i) → made.head? = some m → A made (if single then 0 else i) m.handle

theorem run_ops (hk : k ≠ .compute) {single : Bool} {A : List Made → Nat → Nat → Prop} {Q : List Made → Op → Prop}
    (C : Accepts k single A Q) : ∀ (ops : List Op) (prepared : List Nat) (D D' : St), DInv k sepDS w h p pass is bs prepared D →
    decide (D.pipe.programs.length = 1) = single →
    Pipe.MadeWith (A D.made) D.pipe → Legal (prepared ≠ []) ops → (∀ o ∈ ops, o ≠ .finish) →
    (∀ pre o post, ops = pre ++ o :: post → ∀ D1, execAll k sepDS w h p D pre = some D1 → Q D1.made o) →
    execAll k sepDS w h p D ops = some D' →
    ∃ prepared', DInv k sepDS w h p pass is bs prepared' D' ∧ decide (D'.pipe.programs.length = 1) = single ∧
      Pipe.MadeWith (A D'.made) D'.pipe
  | [], prepared, D, D', I, hs, hA, _, _, _, hx => by
    simp only [execAll, Option.some.injEq] at hx
    subst hx
    exact ⟨prepared, I, hs, hA⟩
  | o :: ops, prepared, D, D', I, hs, hA, hL, hnf, hQ, hx => by
    simp only [execAll, Option.bind_eq_some_iff] at hx
    obtain ⟨D1, h1, hx⟩ := hx
    have hq := hQ [] o ops rfl D rfl
    have hQ' : ∀ pre o' post, ops = pre ++ o' :: post → ∀ D2, execAll k sepDS w h p D1 pre = some D2 → Q D2.made o' := by
      intro pre o' post e D2 h2
      refine hQ (o :: pre) o' post (by rw [e]; rfl) D2 ?_
      simp only [execAll, h1, Option.bind_some]; exact h2
    have hnf' : ∀ o ∈ ops, o ≠ Op.finish := fun x hx => hnf x (by simp [hx])
    have hslot : ∀ i, slotOf D i = if single then 0 else i := by
      intro i
      subst hs
      simp [slotOf]
    cases o with
    | record G c i =>
      obtain ⟨a1, a2, a3, -⟩ := record_dinv hk I h1 A hA (fun m hm => by rw [hslot]; exact C.fresh _ G c i m hq hm)
        (fun m hm hi hsl h0 => by
          rw [hslot]
          refine C.again _ G c i m hq hm ?_
          intro hqd
          obtain ⟨x, x1, x2⟩ := I.full hqd i ((I.prep i).2 hi) _ hsl
          rw [h0] at x1
          simp only [Option.some.injEq] at x1
          exact x2 x1.symm)
      refine run_ops hk C ops _ D1 D' a1 (by rw [a3]; exact hs) a2 ?_ hnf' hQ' hx
      have : (i :: prepared ≠ []) = True := by simp
      rw [this]; exact hL
    | reset q i =>
      obtain ⟨a1, a2, a3, -⟩ := reset_dinv hk I hL.1 h1 A hA (fun m hm => by rw [hslot]; exact C.reset _ q i m hq hm)
      exact run_ops hk C ops _ D1 D' a1 (by rw [a3]; exact hs) a2 hL.2 hnf' hQ' hx
    | run =>
      obtain ⟨a1, a2, a3, -⟩ := run_dinv I h1 A hA
      exact run_ops hk C ops _ D1 D' a1 (by rw [a3]; exact hs) a2 hL hnf' hQ' hx
    | finish => exact absurd rfl (hnf .finish (by simp))

theorem legal_split {G : GraphSt} {c : Ctx} {i : Nat} : ∀ (ops : List Op) (P : Prop), Legal P (ops ++ [.record G c i]) →
    Legal P ops ∧ ∀ o ∈ ops, o ≠ .finish
  | [], _, _ => ⟨trivial, by intro _ h; cases h⟩
  | .record _ _ _ :: ops, P, h => by
    obtain ⟨a, b⟩ := legal_split ops _ h
    refine ⟨a, ?_⟩
    intro o ho
    rcases List.mem_cons.mp ho with rfl | ho
    · simp
    · exact b o ho
  | .reset _ _ :: ops, P, h => by
    obtain ⟨a, b⟩ := legal_split ops _ h.2
    refine ⟨⟨h.1, a⟩, ?_⟩
    intro o ho
    rcases List.mem_cons.mp ho with rfl | ho
    · simp
    · exact b o ho
  | .run :: ops, P, h => by
    obtain ⟨a, b⟩ := legal_split (P := P) ops h
    refine ⟨a, ?_⟩
    intro o ho
    rcases List.mem_cons.mp ho with rfl | ho
    · simp
    · exact b o ho
  | .finish :: ops, P, h => by
    have := h (.record G c i) (by simp)
    cases this

theorem execAll_append (a b : List Op) : ∀ D, execAll k sepDS w h p D (a ++ b) =
    (execAll k sepDS w h p D a).bind fun D => execAll k sepDS w h p D b := by
  induction a with
  | nil => intro D; simp [execAll]
  | cons o a ih =>
    intro D
    simp only [List.cons_append, execAll]
    cases exec k sepDS w h p D o with
    | none => rfl
    | some t => simpa using ih t

/-- A history that ends with a recording. -/
theorem ends_with_record (hk : k ≠ .compute) {single : Bool} {A : List Made → Nat → Nat → Prop} {Q : List Made → Op → Prop}
    (C : Accepts k single A Q) (ops : List Op) (G : GraphSt) (c : Ctx) (i : Nat) (D D' : St)
    (I : DInv k sepDS w h p pass is bs [] D) (hs : decide (D.pipe.programs.length = 1) = single)
    (hA : Pipe.MadeWith (A D.made) D.pipe) (hL : Legal False (ops ++ [.record G c i]))
    (hQ : ∀ pre o post, ops ++ [.record G c i] = pre ++ o :: post → ∀ D1, execAll k sepDS w h p D pre = some D1 → Q D1.made o)
    (hx : execAll k sepDS w h p D (ops ++ [.record G c i]) = some D') :
    ∃ D0 prepared, execAll k sepDS w h p D ops = some D0 ∧ DInv k sepDS w h p pass is bs (i :: prepared) D' ∧
      (∃ m f x, D'.current i = some m ∧ RPass.initialise sepDS G w h p i ((D0.current i).map (·.obj)) c = some (m.obj, f, x)) ∧
      ∃ pipe layout set P, D'.pipe.evs.getLast? = some (.bind pipe layout set) ∧
        (Pipe.after Pipe.Dev.empty D'.pipe.evs).pipes pipe = some P ∧ A D'.made (if single then 0 else i) P.renderPass := by
  rw [execAll_append] at hx
  simp only [Option.bind_eq_some_iff, execAll] at hx
  obtain ⟨D0, h0, D1, h1, hx⟩ := hx
  simp only [Option.some.injEq] at hx
  subst hx
  obtain ⟨hL1, hnf⟩ := legal_split ops _ hL
  have hL2 : Legal (([] : List Nat) ≠ []) ops := by
    have : (([] : List Nat) ≠ []) = False := by simp
    rw [this]; exact hL1
  obtain ⟨prepared, J, hs', hA'⟩ := run_ops hk C ops [] D D0 I hs hA hL2 hnf
    (fun pre o post e => hQ pre o (post ++ [.record G c i]) (by rw [e]; simp)) h0
  have hq := hQ ops (.record G c i) [] rfl D0 h0
  have hslot : slotOf D0 i = if single then 0 else i := by
    subst hs'
    simp [slotOf]
  obtain ⟨a1, a2, a3, -, a5, -, pipe, layout, set, P, b1, b2, b3⟩ := record_dinv hk J h1 A hA'
    (fun m hm => by rw [hslot]; exact C.fresh _ G c i m hq hm)
    (fun m hm hi hsl hz => by
      rw [hslot]
      refine C.again _ G c i m hq hm ?_
      intro hqd
      obtain ⟨x, x1, x2⟩ := J.full hqd i ((J.prep i).2 hi) _ hsl
      rw [hz] at x1
      simp only [Option.some.injEq] at x1
      exact x2 x1.symm)
  refine ⟨D0, prepared, h0, a1, a5, pipe, layout, set, P, b1, b2, ?_⟩
  rw [hslot] at b3
  exact b3

end

/-! ### The properties -/

theorem madeWith_new (A : Nat → Nat → Prop) (images buffers : List Attachment) (programs : List Nat)
    (creator : Option (Nat × (Nat → Nat))) (n : Nat) : Pipe.MadeWith A (Pipe.St.new images buffers programs creator n) := by
  intro j x P hj h0
  simp only [Pipe.St.new] at hj
  exact absurd (List.eq_of_mem_replicate (List.mem_of_getElem? hj)) h0

/-- C71. Whenever a quad or mesh pass is recorded, the pipeline it binds was made with a render pass of this same pass that
has the same subpass references, if the views of each attachment all have one format, and with the blend states and the
viewport it would get for the render pass the recording begins (`m.obj`, the one `initialise` answers). When the two render
passes have the same dependencies, they are compatible. -/
theorem bound_pipeline_fits (k : Pipe.Kind) (hk : k ≠ .compute) (sepDS : Bool) (w h : Nat) (p : RunPass) (pass : Nat)
    (is : List Pipe.AddImage) (bs : List Pipe.AddBuffer) (hi : p.images = is.map (·.attach pass)) (programs : List Nat)
    (creator : Option (Nat × (Nat → Nat))) (n : Nat) (hd : ((Pipe.promised is bs).map (·.1)).Nodup) (hn : 0 < n)
    (hs : (Pipe.promised is bs).length * n < 2 ^ 32) (ops : List Op) (G : GraphSt) (c : Ctx) (i : Nat)
    (hL : Legal False (ops ++ [.record G c i])) (D : St)
    (hx : execAll k sepDS w h p (St.new p (bs.map (·.attach pass)) programs creator n) (ops ++ [.record G c i]) = some D) :
    ∃ D0 pipe layout set P o m f c', execAll k sepDS w h p (St.new p (bs.map (·.attach pass)) programs creator n) ops = some D0 ∧
      RPass.initialise sepDS G w h p i ((D0.current i).map (·.obj)) c = some (m.obj, f, c') ∧ D.current i = some m ∧
      D.pipe.evs.getLast? = some (.bind pipe layout set) ∧
      (Pipe.after Pipe.Dev.empty D.pipe.evs).pipes pipe = some P ∧ D.object P.renderPass = some o ∧
      (OneFormat p → SameReferences o m.obj ∧ (o.deps = m.obj.deps → Compatible o m.obj)) ∧
      ∀ position, D.states position w h P.renderPass = some (prepareStates position w h m.obj) := by
  obtain ⟨D0, prepared, h0, I, ⟨m, f, c', hm, hin⟩, pipe, layout, set, P, b1, b2, b3⟩ :=
    ends_with_record hk (single := decide ((St.new p (bs.map (·.attach pass)) programs creator n).pipe.programs.length = 1))
      (A := fun made _ r => ∃ m ∈ made, m.handle = r) (Q := fun _ _ => True)
      ⟨fun made G c i m _ _ => ⟨⟨m, by simp, rfl⟩, fun j r _ ⟨m', h1, h2⟩ => ⟨m', by simp [h1], h2⟩⟩,
       fun made G c i m _ hm _ => ⟨m, List.mem_of_mem_head? hm, rfl⟩,
       fun made q i m _ hm => ⟨m, List.mem_of_mem_head? hm, rfl⟩⟩
      ops G c i _ D (dinv_new hi hd hn hs) rfl (madeWith_new _ _ _ _ _ _) hL (fun _ _ _ _ _ _ => trivial) hx
  obtain ⟨m', hm', hh⟩ := b3
  have ho := object_of I.distinct hm'
  rw [hh] at ho
  obtain ⟨G1, c1, x1, e1⟩ := I.objs m' hm'
  obtain ⟨G2, c2, x2, e2⟩ := I.objs m (current_mem hm).1
  refine ⟨D0, pipe, layout, set, P, m'.obj, m, f, c', h0, hin, hm, b1, b2, ho, ?_, ?_⟩
  · intro hone
    obtain ⟨A, -⟩ := initialise_alike (f := True) (fun _ => hone) e1 e2
    exact ⟨alike_references A, fun hdep => ⟨alike_references A, hdep⟩⟩
  · intro position
    obtain ⟨A, -⟩ := initialise_alike (f := False) (fun x => x.elim) e1 e2
    simp only [St.states, ho, Option.map_some, prepareStates, A.blends]

/-- C71. The blend states of the pipeline a quad or mesh pass binds are the declared ones of its colour targets, one for
each, in the order of their declaration. -/
theorem blends_declared (k : Pipe.Kind) (hk : k ≠ .compute) (sepDS : Bool) (w h : Nat) (p : RunPass) (pass : Nat)
    (is : List Pipe.AddImage) (bs : List Pipe.AddBuffer) (hi : p.images = is.map (·.attach pass)) (programs : List Nat)
    (creator : Option (Nat × (Nat → Nat))) (n : Nat) (hd : ((Pipe.promised is bs).map (·.1)).Nodup) (hn : 0 < n)
    (hs : (Pipe.promised is bs).length * n < 2 ^ 32) (hD : RPass.Declares sepDS p) (ops : List Op) (G : GraphSt) (c : Ctx) (i : Nat)
    (hL : Legal False (ops ++ [.record G c i])) (D : St)
    (hx : execAll k sepDS w h p (St.new p (bs.map (·.attach pass)) programs creator n) (ops ++ [.record G c i]) = some D)
    (position : Nat × Nat) :
    ∃ pipe layout set P s, D.pipe.evs.getLast? = some (.bind pipe layout set) ∧
      (Pipe.after Pipe.Dev.empty D.pipe.evs).pipes pipe = some P ∧ D.states position w h P.renderPass = some s ∧
      s.blends = ((p.images.filter fun a => RPass.isTarget a && !RPass.isDS a).map (·.img.blend)) := by
  obtain ⟨D0, prepared, h0, I, ⟨m, f, c', hm, hin⟩, pipe, layout, set, P, b1, b2, b3⟩ :=
    ends_with_record hk (single := decide ((St.new p (bs.map (·.attach pass)) programs creator n).pipe.programs.length = 1))
      (A := fun made _ r => ∃ m ∈ made, m.handle = r) (Q := fun _ _ => True)
      ⟨fun made G c i m _ _ => ⟨⟨m, by simp, rfl⟩, fun j r _ ⟨m', h1, h2⟩ => ⟨m', by simp [h1], h2⟩⟩,
       fun made G c i m _ hm _ => ⟨m, List.mem_of_mem_head? hm, rfl⟩,
       fun made q i m _ hm => ⟨m, List.mem_of_mem_head? hm, rfl⟩⟩
      ops G c i _ D (dinv_new hi hd hn hs) rfl (madeWith_new _ _ _ _ _ _) hL (fun _ _ _ _ _ _ => trivial) hx
  obtain ⟨m', hm', hh⟩ := b3
  have ho := object_of I.distinct hm'
  rw [hh] at ho
  obtain ⟨G1, c1, x1, e1⟩ := I.objs m' hm'
  have e1' : RPass.initialise sepDS G1 w h p m'.index none c1 = some (m'.obj, true, x1.2) := by
    rcases initialise_fresh e1 with ⟨h1, -⟩ | ⟨-, h2⟩
    · simp only at h1
      rw [e1, ← h1]
    · cases h2
  obtain ⟨ts, hts, hc⟩ := RPass.parts_correspond hD ⟨G1, c1, _, w, h, e1'⟩
  refine ⟨pipe, layout, set, P, prepareStates position w h m'.obj, b1, b2, by rw [St.states, ho]; rfl, ?_⟩
  show m'.obj.blends = _
  have hf : (p.images.filter fun a => RPass.isTarget a && !RPass.isDS a) = (ts.map (·.1)).filter fun a => !RPass.isDS a := by
    rw [hts.all, List.filter_filter]
    congr 1
    funext a
    rw [Bool.and_comm]
  rw [hc.blends, hf, List.filter_map, List.map_map]
  rfl

/-- C71. A pass that is only used with one index (the default) binds a pipeline made with the very render pass the
recording begins. -/
theorem one_index_exact (k : Pipe.Kind) (hk : k ≠ .compute) (sepDS : Bool) (w h : Nat) (p : RunPass) (pass : Nat)
    (is : List Pipe.AddImage) (bs : List Pipe.AddBuffer) (hi : p.images = is.map (·.attach pass)) (programs : List Nat)
    (creator : Option (Nat × (Nat → Nat))) (n : Nat) (hd : ((Pipe.promised is bs).map (·.1)).Nodup) (hn : 0 < n)
    (hs : (Pipe.promised is bs).length * n < 2 ^ 32) (ops : List Op) (G : GraphSt) (c : Ctx) (i : Nat)
    (hL : Legal False (ops ++ [.record G c i])) (hone : OnlyIndex i ops) (D : St)
    (hx : execAll k sepDS w h p (St.new p (bs.map (·.attach pass)) programs creator n) (ops ++ [.record G c i]) = some D) :
    ∃ pipe layout set P m, D.current i = some m ∧ D.pipe.evs.getLast? = some (.bind pipe layout set) ∧
      (Pipe.after Pipe.Dev.empty D.pipe.evs).pipes pipe = some P ∧ P.renderPass = m.handle := by
  have hQ : ∀ pre o post, ops ++ [.record G c i] = pre ++ o :: post → ∀ D1,
      execAll k sepDS w h p (St.new p (bs.map (·.attach pass)) programs creator n) pre = some D1 →
      (∀ m ∈ D1.made, m.index = i) ∧ match o with | .record _ _ j => j = i | .reset _ j => j = i | _ => True := by
    intro pre o post e D1 h1
    refine ⟨?_, ?_⟩
    · -- only this index was made so far
      have hpre : ∀ o ∈ pre, match o with | .record _ _ j => j = i | .reset _ j => j = i | _ => True := by
        intro o' ho'
        have : o' ∈ ops ++ [Op.record G c i] := by rw [e]; simp [ho']
        rcases List.mem_append.mp this with h | h
        · exact hone o' h
        · simp only [List.mem_singleton] at h
          subst h; rfl
      have gen : ∀ (l : List Op) (E E' : St), (∀ o ∈ l, match o with | .record _ _ j => j = i | .reset _ j => j = i | _ => True) →
          (∀ m ∈ E.made, m.index = i) → execAll k sepDS w h p E l = some E' → ∀ m ∈ E'.made, m.index = i := by
        intro l
        induction l with
        | nil =>
          intro E E' _ hE hx
          simp only [execAll, Option.some.injEq] at hx
          subst hx; exact hE
        | cons o l ih =>
          intro E E' hl hE hx
          simp only [execAll, Option.bind_eq_some_iff] at hx
          obtain ⟨E1, h1, hx⟩ := hx
          refine ih E1 E' (fun x hx => hl x (by simp [hx])) ?_ hx
          have ho := hl o (by simp)
          cases o with
          | record G' c' j =>
            simp only at ho
            subst ho
            simp only [exec, Option.bind_eq_some_iff, Option.map_eq_some_iff] at h1
            obtain ⟨r, -, s', -, rfl⟩ := h1
            intro m hm
            simp only at hm
            split at hm
            · rcases List.mem_cons.mp hm with rfl | hm
              · rfl
              · exact hE m hm
            · exact hE m hm
          | reset q j =>
            simp only [exec, Option.map_eq_some_iff] at h1
            obtain ⟨s', -, rfl⟩ := h1
            exact hE
          | run =>
            simp only [exec, Option.map_eq_some_iff] at h1
            obtain ⟨s', -, rfl⟩ := h1
            exact hE
          | finish =>
            simp only [exec, Option.map_eq_some_iff] at h1
            obtain ⟨s', -, rfl⟩ := h1
            exact hE
      exact gen pre _ D1 hpre (by simp [St.new]) h1
    · have : o ∈ ops ++ [Op.record G c i] := by rw [e]; simp
      rcases List.mem_append.mp this with h | h
      · exact hone o h
      · simp only [List.mem_singleton] at h
        subst h; rfl
  obtain ⟨D0, prepared, h0, I, ⟨m, f, c', hm, hin⟩, pipe, layout, set, P, b1, b2, b3⟩ :=
    ends_with_record hk (single := decide ((St.new p (bs.map (·.attach pass)) programs creator n).pipe.programs.length = 1))
      (A := fun made j r => (∀ m ∈ made, m.index = i) ∧ (j = (if decide ((St.new p (bs.map (·.attach pass)) programs creator n).pipe.programs.length = 1) = true then 0 else i) →
        ∃ m, made.head? = some m ∧ m.handle = r))
      (Q := fun made o => (∀ m ∈ made, m.index = i) ∧ match o with | .record _ _ j => j = i | .reset _ j => j = i | _ => True)
      ⟨fun made G c j m hj hm => by
        obtain ⟨hall, hj⟩ := hj
        simp only at hj
        subst hj
        have hall' : ∀ x ∈ m :: made, x.index = j := by
          intro x hx
          rcases List.mem_cons.mp hx with rfl | hx
          · exact hm
          · exact hall x hx
        exact ⟨⟨hall', fun _ => ⟨m, rfl, rfl⟩⟩, fun j' r hne _ => ⟨hall', fun e => absurd e hne⟩⟩,
       fun made G c j m hj hm _ => ⟨hj.1, fun _ => ⟨m, hm, rfl⟩⟩,
       fun made q j m hj hm => ⟨hj.1, fun _ => ⟨m, hm, rfl⟩⟩⟩
      ops G c i _ D (dinv_new hi hd hn hs) rfl (madeWith_new _ _ _ _ _ _) hL hQ hx
  obtain ⟨hall, hb⟩ := b3
  obtain ⟨m', e1, e2⟩ := hb rfl
  have hcur : D.current i = some m' := by
    simp only [St.current]
    cases hmd : D.made with
    | nil => rw [hmd] at e1; cases e1
    | cons a l =>
      rw [hmd] at e1
      simp only [List.head?_cons, Option.some.injEq] at e1
      subst e1
      rw [List.find?_cons]
      rw [hall a (by rw [hmd]; simp)]
      simp
  exact ⟨pipe, layout, set, P, m', hcur, b1, b2, e2.symm⟩

/-- C71. A quad pass with one program per index binds, for every index, a pipeline made with the very render pass the
recording begins, if `resetPipeline` is only called for the index a render pass was last made for, or for one that has
none yet. -/
theorem quad_index_exact (sepDS : Bool) (w h : Nat) (p : RunPass) (pass : Nat)
    (is : List Pipe.AddImage) (bs : List Pipe.AddBuffer) (hi : p.images = is.map (·.attach pass)) (programs : List Nat)
    (hp : programs.length ≠ 1) (n : Nat) (hd : ((Pipe.promised is bs).map (·.1)).Nodup) (hn : 0 < n)
    (hs : (Pipe.promised is bs).length * n < 2 ^ 32) (ops : List Op) (G : GraphSt) (c : Ctx) (i : Nat)
    (hL : Legal False (ops ++ [.record G c i]))
    (hr : ∀ pre q j post, ops = pre ++ .reset q j :: post → ∀ D1,
      execAll .quad sepDS w h p (St.new p (bs.map (·.attach pass)) programs none n) pre = some D1 →
      LastFor D1 j ∨ D1.current j = none) (D : St)
    (hx : execAll .quad sepDS w h p (St.new p (bs.map (·.attach pass)) programs none n) (ops ++ [.record G c i]) = some D) :
    ∃ pipe layout set P m, D.current i = some m ∧ D.pipe.evs.getLast? = some (.bind pipe layout set) ∧
      (Pipe.after Pipe.Dev.empty D.pipe.evs).pipes pipe = some P ∧ P.renderPass = m.handle := by
  have hsingle : decide ((St.new p (bs.map (·.attach pass)) programs none n).pipe.programs.length = 1) = false := by
    simp [St.new, Pipe.St.new, hp]
  have hQ : ∀ pre o post, ops ++ [.record G c i] = pre ++ o :: post → ∀ D1,
      execAll .quad sepDS w h p (St.new p (bs.map (·.attach pass)) programs none n) pre = some D1 →
      match o with
        | .reset _ j => (∃ m, D1.made.head? = some m ∧ m.index = j) ∨ D1.made.find? (fun m => m.index == j) = none
        | _ => True := by
    intro pre o post e D1 h1
    cases o with
    | reset q j =>
      have hpost : ∃ post', ops = pre ++ .reset q j :: post' := by
        rcases List.eq_nil_or_concat post with rfl | ⟨post', x, rfl⟩
        · have := congrArg List.getLast? e
          simp at this
        · refine ⟨post', ?_⟩
          rw [List.concat_eq_append, ← List.cons_append, ← List.append_assoc] at e
          exact (List.append_inj' e rfl).1
      obtain ⟨post', hp'⟩ := hpost
      exact hr pre q j post' hp' D1 h1
    | record _ _ _ => trivial
    | run => trivial
    | finish => trivial
  obtain ⟨D0, prepared, h0, I, ⟨m, f, c', hm, hin⟩, pipe, layout, set, P, b1, b2, b3⟩ :=
    ends_with_record (k := .quad) (by simp) (single := false)
      (A := fun made j r => ∀ m, made.find? (fun m => m.index == j) = some m → m.handle = r)
      (Q := fun made o => match o with
        | .reset _ j => (∃ m, made.head? = some m ∧ m.index = j) ∨ made.find? (fun m => m.index == j) = none
        | _ => True)
      ⟨fun made G c j m _ hm => by
        refine ⟨?_, ?_⟩
        · intro m' hm'
          simp only [Bool.false_eq_true, ite_false] at hm'
          rw [List.find?_cons, hm] at hm'
          simp only [beq_self_eq_true, Option.some.injEq] at hm'
          rw [hm']
        · intro j' r hne ha m' hm'
          simp only [Bool.false_eq_true, ite_false] at hne
          rw [List.find?_cons, hm] at hm'
          have : (j == j') = false := by simp only [beq_eq_false_iff_ne]; exact fun e => hne e.symm
          rw [this] at hm'
          exact ha m' hm',
       fun made G c j m _ hm hq => absurd rfl hq,
       fun made q j m hj hm m' hm' => by
        simp only [Bool.false_eq_true, ite_false] at hm'
        rcases hj with ⟨m1, e1, e2⟩ | hj
        · rw [hm] at e1; cases e1
          cases made with
          | nil => cases hm
          | cons a l =>
            simp only [List.head?_cons, Option.some.injEq] at hm
            subst hm
            rw [List.find?_cons, e2] at hm'
            simp only [beq_self_eq_true, Option.some.injEq] at hm'
            rw [hm']
        · rw [hj] at hm'; cases hm'⟩
      ops G c i _ D (dinv_new hi hd hn hs) hsingle
      (by intro j x P hj h0; exact absurd (List.eq_of_mem_replicate (List.mem_of_getElem? hj)) h0) hL hQ hx
  exact ⟨pipe, layout, set, P, m, hm, b1, b2, (b3 m hm).symm⟩

/-- C71. Every pipeline a quad or mesh pass creates is created with a render pass the pass has at that moment (not one it
destroyed before). -/
theorem created_with_live (k : Pipe.Kind) (hk : k ≠ .compute) (sepDS : Bool) (w h : Nat) (p : RunPass) (pass : Nat)
    (is : List Pipe.AddImage) (bs : List Pipe.AddBuffer) (hi : p.images = is.map (·.attach pass)) (programs : List Nat)
    (creator : Option (Nat × (Nat → Nat))) (n : Nat) (hd : ((Pipe.promised is bs).map (·.1)).Nodup) (hn : 0 < n)
    (hs : (Pipe.promised is bs).length * n < 2 ^ 32) (ops : List Op) (o : Op) (hL : Legal False (ops ++ [o]))
    (hnf : ∀ o ∈ ops, o ≠ .finish) (D D' : St)
    (hx : execAll k sepDS w h p (St.new p (bs.map (·.attach pass)) programs creator n) ops = some D)
    (hx' : exec k sepDS w h p D o = some D') :
    ∃ es, D'.pipe.evs = D.pipe.evs ++ es ∧ ∀ h' prog rp l, .createPipe h' prog rp l ∈ es →
      ∃ m, D'.current m.index = some m ∧ m.handle = rp := by
  have hLs : ∀ (ops : List Op) (P : Prop), Legal P (ops ++ [o]) → (∀ o ∈ ops, o ≠ .finish) → Legal P ops ∧
      (∀ q j, o = .reset q j → P ∨ ∃ G c i, .record G c i ∈ ops) := by
    intro ops
    induction ops with
    | nil =>
      intro P hL _
      refine ⟨trivial, fun q j e => ?_⟩
      subst e; exact Or.inl hL.1
    | cons a ops ih =>
      intro P hL hnf
      have hnf' : ∀ o ∈ ops, o ≠ Op.finish := fun x hx => hnf x (by simp [hx])
      cases a with
      | record G c i =>
        refine ⟨(ih _ hL hnf').1, fun q j _ => Or.inr ⟨G, c, i, by simp⟩⟩
      | reset q j =>
        obtain ⟨a, b⟩ := ih _ hL.2 hnf'
        refine ⟨⟨hL.1, a⟩, fun q j e => (b q j e).imp_right fun ⟨G, c, i, h⟩ => ⟨G, c, i, by simp [h]⟩⟩
      | run =>
        obtain ⟨a, b⟩ := ih P hL hnf'
        exact ⟨a, fun q j e => (b q j e).imp_right fun ⟨G, c, i, h⟩ => ⟨G, c, i, by simp [h]⟩⟩
      | finish => exact absurd rfl (hnf .finish (by simp))
  obtain ⟨hL1, hL3⟩ := hLs ops False hL hnf
  have hL2 : Legal (([] : List Nat) ≠ []) ops := by
    have : (([] : List Nat) ≠ []) = False := by simp
    rw [this]; exact hL1
  obtain ⟨prepared, I, -, hA⟩ := run_ops hk
    (single := decide ((St.new p (bs.map (·.attach pass)) programs creator n).pipe.programs.length = 1))
    (A := fun _ _ _ => True) (Q := fun _ _ => True)
    ⟨fun _ _ _ _ _ _ _ => ⟨trivial, fun _ _ _ _ => trivial⟩, fun _ _ _ _ _ _ _ _ => trivial, fun _ _ _ _ _ _ => trivial⟩
    ops [] _ D (dinv_new hi hd hn hs) rfl (madeWith_new _ _ _ _ _ _) hL2 hnf (fun _ _ _ _ _ _ => trivial) hx
  have close : ∀ prepared' E es, DInv k sepDS w h p pass is bs prepared' E → E.made ≠ [] → Pipe.OnlyWith E.pipe.renderPass es →
      ∀ h' prog rp l, .createPipe h' prog rp l ∈ es → ∃ m, E.current m.index = some m ∧ m.handle = rp := by
    intro prepared' E es J hne ho h' prog rp l hm
    have e := ho h' prog rp l hm
    cases hmd : E.made with
    | nil => exact absurd hmd hne
    | cons a t =>
      refine ⟨a, by simp [St.current, hmd], ?_⟩
      rw [e, J.head a (by rw [hmd]; rfl)]
  cases o with
  | record G c i =>
    obtain ⟨J, -, -, ⟨es, e1, e2⟩, ⟨m, f, x, hm, -⟩, -⟩ := record_dinv hk I hx' (fun _ _ _ => True) hA
      (fun _ _ => ⟨trivial, fun _ _ _ _ => trivial⟩) (fun _ _ _ _ _ => trivial)
    exact ⟨es, e1, close _ D' es J (by intro e; have := (current_mem hm).1; rw [e] at this; cases this) e2⟩
  | reset q j =>
    by_cases hp : prepared = []
    · exfalso
      -- nothing recorded yet: not legal
      rcases hL3 q j rfl with h | ⟨G, c, i, hmem⟩
      · exact h
      · subst hp
        have gen : ∀ (l : List Op) (E E' : St) (pr : List Nat), DInv k sepDS w h p pass is bs pr E → Legal (pr ≠ []) l →
            (∀ o ∈ l, o ≠ .finish) → (.record G c i ∈ l ∨ E.made ≠ []) → execAll k sepDS w h p E l = some E' → E'.made ≠ [] := by
          intro l
          induction l with
          | nil =>
            intro E E' pr _ _ _ hm hx
            simp only [execAll, Option.some.injEq] at hx
            subst hx
            rcases hm with h | h
            · cases h
            · exact h
          | cons a l ih =>
            intro E E' pr J hL hnf hm hx
            simp only [execAll, Option.bind_eq_some_iff] at hx
            obtain ⟨E1, h1, hx⟩ := hx
            have hnf' : ∀ o ∈ l, o ≠ Op.finish := fun x hx => hnf x (by simp [hx])
            cases a with
            | record G' c' i' =>
              obtain ⟨J1, -, -, -, ⟨m, f, x, hm1, -⟩, -⟩ := record_dinv hk J h1 (fun _ _ _ => True) (fun _ _ _ _ _ _ => trivial)
                (fun _ _ => ⟨trivial, fun _ _ _ _ => trivial⟩) (fun _ _ _ _ _ => trivial)
              refine ih E1 E' (i' :: pr) J1 ?_ hnf' (Or.inr ?_) hx
              · have : (i' :: pr ≠ []) = True := by simp
                rw [this]; exact hL
              · intro e; have := (current_mem hm1).1; rw [e] at this; cases this
            | reset q j =>
              obtain ⟨J1, -, -, e, -⟩ := reset_dinv hk J hL.1 h1 (fun _ _ _ => True) (fun _ _ _ _ _ _ => trivial) (fun _ _ => trivial)
              refine ih E1 E' pr J1 hL.2 hnf' ?_ hx
              rw [e]
              exact hm.imp_left fun h => by
                rcases List.mem_cons.mp h with h | h
                · cases h
                · exact h
            | run =>
              obtain ⟨J1, -, -, e, -⟩ := run_dinv J h1 (fun _ _ _ => True) (fun _ _ _ _ _ _ => trivial)
              refine ih E1 E' pr J1 hL hnf' ?_ hx
              rw [e]
              exact hm.imp_left fun h => by
                rcases List.mem_cons.mp h with h | h
                · cases h
                · exact h
            | finish => exact absurd rfl (hnf .finish (by simp))
        have := gen ops _ D [] (dinv_new hi hd hn hs) hL2 hnf (Or.inl hmem) hx
        obtain ⟨m, hm⟩ := List.exists_mem_of_ne_nil _ this
        have := (I.prep m.index).2 ⟨m, hm, rfl⟩
        cases this
    · obtain ⟨J, -, -, e0, es, e1, e2⟩ := reset_dinv hk I hp hx' (fun _ _ _ => True) hA (fun _ _ => trivial)
      refine ⟨es, e1, close _ D' es J ?_ e2⟩
      intro e
      obtain ⟨i, hi⟩ := List.exists_mem_of_ne_nil _ hp
      rw [J.prep, e] at hi
      obtain ⟨_, h, _⟩ := hi
      cases h
  | run =>
    simp only [exec, Pipe.exec, Option.map_some, Option.some.injEq] at hx'
    subst hx'
    refine ⟨_, rfl, ?_⟩
    intro h' prog rp l hm
    simp at hm
  | finish =>
    simp only [exec, Pipe.exec, Option.map_some, Option.some.injEq] at hx'
    subst hx'
    obtain ⟨es, e1, e2⟩ := Pipe.cleanup_evs D.pipe
    refine ⟨es, e1, ?_⟩
    intro h' prog rp l hm
    -- no creation at all
    have h1 := e2 0 h' prog rp l hm
    have h2 := e2 1 h' prog rp l hm
    omega

/-! ### Where it fails, and concrete uses -/

/-- The render pass the pipeline bound last was created with, and the one in use for an index: the object of the first,
that of the second, the handles. -/
def watch (i : Nat) (D : St) : Option (RPass.PassObj × RPass.PassObj × Nat × Nat) :=
  match D.pipe.evs.getLast? with
  | some (.bind pipe _ _) =>
    ((Pipe.after Pipe.Dev.empty D.pipe.evs).pipes pipe).bind fun P => (D.object P.renderPass).bind fun o =>
      (D.current i).map fun m => (o, m.obj, P.renderPass, m.handle)
  | _ => none

theorem watch_some {i : Nat} {X : Option St} {f : RPass.PassObj × RPass.PassObj × Nat × Nat → Bool}
    (e : (X.bind (watch i)).map f = some true) :
    ∃ D pipe layout set P o m, X = some D ∧ D.current i = some m ∧ D.pipe.evs.getLast? = some (.bind pipe layout set) ∧
      (Pipe.after Pipe.Dev.empty D.pipe.evs).pipes pipe = some P ∧ D.object P.renderPass = some o ∧
      f (o, m.obj, P.renderPass, m.handle) = true := by
  obtain ⟨x, hx, hf⟩ := Option.map_eq_some_iff.1 e
  obtain ⟨D, hD, hw⟩ := Option.bind_eq_some_iff.1 hx
  unfold watch at hw
  split at hw
  · next pipe layout set hl =>
    obtain ⟨P, hP, hw⟩ := Option.bind_eq_some_iff.1 hw
    obtain ⟨o, ho, hw⟩ := Option.bind_eq_some_iff.1 hw
    obtain ⟨m, hm, rfl⟩ := Option.map_eq_some_iff.1 hw
    exact ⟨D, pipe, layout, set, P, o, m, hD, hm, hl, hP, ho, hf⟩
  · simp at hw

def dImg (id format : Nat) : Image := ⟨id, format, 1, 1, 16, 16, 1⟩
def dView (id format : Nat) : View := ⟨id, dImg id format, .d2, format, ⟨Aspect.color, 0, 1, 0, 1⟩⟩
def dPass (is : List Pipe.AddImage) : RunPass :=
  ⟨5, 2, false, ⟨Access.colorRead ||| Access.colorWrite, Stage.colorAttachmentOutput⟩, is.map (·.attach 5), [], [], fun _ r => r⟩
def dG : GraphSt := ⟨LayoutMap.empty, [], Ctx.new⟩
/-- The context of a recording of the pass, which follows a pass in the state `prev`. -/
def dCtx (prev : AccessState) : Ctx :=
  { Ctx.new with prev := prev, curr := ⟨Access.colorRead ||| Access.colorWrite, Stage.colorAttachmentOutput⟩ }

/-- A pass with those attachments and programs, after `ops`. -/
def dAfter (k : Pipe.Kind) (is : List Pipe.AddImage) (programs : List Nat) (ops : List Op) : Option St :=
  execAll k false 16 16 (dPass is) (St.new (dPass is) [] programs none 2) ops

/-- A sampled image and a colour target, one per index, of the same format, … -/
def d37 : List Pipe.AddImage := [⟨.sampled, 0, [dView 3 37]⟩, ⟨.outputColour, 0, [dView 1 37, dView 2 37]⟩]
/-- … of two formats. -/
def d3744 : List Pipe.AddImage := [⟨.sampled, 0, [dView 3 37]⟩, ⟨.outputColour, 0, [dView 1 37, dView 2 44]⟩]
/-- The state of a compute pass. -/
def dCompute : AccessState := ⟨Access.shaderRead, Stage.computeShader⟩

/-- Index 0, index 1 (after another kind of pass), index 0 again. -/
def dBack : List Op := [.record dG (dCtx bottom) 0, .record dG (dCtx dCompute) 1, .record dG (dCtx bottom) 0]

set_option maxRecDepth 20000 in
/-- C71 needs one format per attachment: with one program for all indices, recording index 0 again after index 1 binds the
pipeline made for the render pass of index 1, whose target has another format. -/
theorem formats_mixed : ∃ D pipe layout set P o m, dAfter .quad d3744 [5] dBack = some D ∧ D.current 0 = some m ∧
    D.pipe.evs.getLast? = some (.bind pipe layout set) ∧ (Pipe.after Pipe.Dev.empty D.pipe.evs).pipes pipe = some P ∧
    D.object P.renderPass = some o ∧ ¬ SameReferences o m.obj := by
  obtain ⟨D, pipe, layout, set, P, o, m, h1, h2, h3, h4, h5, h6⟩ := watch_some (i := 0)
    (X := dAfter .quad d3744 [5] dBack)
    (f := fun x => x.1.colours.map (refFormat x.1) != x.2.1.colours.map (refFormat x.2.1)) (by decide)
  refine ⟨D, pipe, layout, set, P, o, m, h1, h2, h3, h4, h5, fun h => ?_⟩
  simp [h.colours] at h6

set_option maxRecDepth 20000 in
/-- Even so the dependencies may differ, so the bound pipeline's render pass is not compatible with the one it is used
in: the two recordings followed passes of different kinds. -/
theorem dependencies_mixed : OneFormat (dPass d37) ∧ ∃ D pipe layout set P o m, dAfter .quad d37 [5] dBack = some D ∧
    D.current 0 = some m ∧
    D.pipe.evs.getLast? = some (.bind pipe layout set) ∧ (Pipe.after Pipe.Dev.empty D.pipe.evs).pipes pipe = some P ∧
    D.object P.renderPass = some o ∧ ¬ Compatible o m.obj := by
  obtain ⟨D, pipe, layout, set, P, o, m, h1, h2, h3, h4, h5, h6⟩ := watch_some (i := 0)
    (X := dAfter .quad d37 [5] dBack) (f := fun x => x.1.deps != x.2.1.deps) (by decide)
  refine ⟨?_, D, pipe, layout, set, P, o, m, h1, h2, h3, h4, h5, fun h => ?_⟩
  · have : ∀ a ∈ (dPass d37).images, a.img.views.all (fun v => v.format == 37) = true := by decide
    intro a ha v hv w hw
    have := this a ha
    simp only [List.all_eq_true, beq_iff_eq] at this
    rw [this v hv, this w hw]
  · simp [h.deps] at h6

set_option maxRecDepth 20000 in
/-- With a program per index a mesh pass does the same: making the render pass of index 1 throws the pipeline of index 0
away, the next one for index 0 is made with the render pass of index 1. -/
theorem mesh_index_mixed : ∃ D pipe layout set P o m, dAfter .mesh d37 [5, 6] dBack = some D ∧ D.current 0 = some m ∧
    D.pipe.evs.getLast? = some (.bind pipe layout set) ∧ (Pipe.after Pipe.Dev.empty D.pipe.evs).pipes pipe = some P ∧
    D.object P.renderPass = some o ∧ P.renderPass ≠ m.handle ∧ ¬ Compatible o m.obj := by
  obtain ⟨D, pipe, layout, set, P, o, m, h1, h2, h3, h4, h5, h6⟩ := watch_some (i := 0)
    (X := dAfter .mesh d37 [5, 6] dBack) (f := fun x => x.1.deps != x.2.1.deps && x.2.2.1 != x.2.2.2) (by decide)
  simp only [Bool.and_eq_true, bne_iff_ne, ne_eq] at h6
  exact ⟨D, pipe, layout, set, P, o, m, h1, h2, h3, h4, h5, h6.2, fun h => h6.1 h.deps⟩

/-- The same use with a program replaced for index 0 after index 1 was recorded. -/
def dReset : List Op :=
  [.record dG (dCtx bottom) 0, .record dG (dCtx dCompute) 1, .reset 7 0, .record dG (dCtx bottom) 0]

set_option maxRecDepth 20000 in
/-- And a quad pass with a program per index, when `resetPipeline` is called for an index other than the one whose render
pass was made last. -/
theorem quad_reset_mixed : ∃ D pipe layout set P o m, dAfter .quad d37 [5, 6] dReset = some D ∧ D.current 0 = some m ∧
    D.pipe.evs.getLast? = some (.bind pipe layout set) ∧ (Pipe.after Pipe.Dev.empty D.pipe.evs).pipes pipe = some P ∧
    D.object P.renderPass = some o ∧ P.renderPass ≠ m.handle ∧ ¬ Compatible o m.obj := by
  obtain ⟨D, pipe, layout, set, P, o, m, h1, h2, h3, h4, h5, h6⟩ := watch_some (i := 0)
    (X := dAfter .quad d37 [5, 6] dReset) (f := fun x => x.1.deps != x.2.1.deps && x.2.2.1 != x.2.2.2) (by decide)
  simp only [Bool.and_eq_true, bne_iff_ne, ne_eq] at h6
  exact ⟨D, pipe, layout, set, P, o, m, h1, h2, h3, h4, h5, h6.2, fun h => h6.1 h.deps⟩

/-- What those uses are: legal, with the hypotheses of the theorems. -/
theorem uses_legal : Legal False dBack ∧ Legal False dReset ∧ (∀ is, (dPass is).images = is.map (·.attach 5)) ∧
    ∀ is, is = d37 ∨ is = d3744 → ((Pipe.promised is []).map (·.1)).Nodup ∧ (Pipe.promised is []).length * 2 < 2 ^ 32 := by
  refine ⟨by simp [Legal, dBack], by simp [Legal, dReset], fun _ => rfl, ?_⟩
  rintro is (rfl | rfl) <;> decide

set_option maxRecDepth 20000 in
/-- The quad pass with a program per index, without the reset, and the single index: the hypotheses of
`quad_index_exact` and `one_index_exact` are met and two render passes were made. -/
theorem uses_exact : ((dAfter .quad d37 [5, 6] dBack).bind (watch 0)).map (fun x => (x.2.2, (x.2.1).deps != [])) =
      some ((1, 1), true) ∧
    OnlyIndex 0 [.record dG (dCtx bottom) 0, .run, .reset 7 0] ∧
    Legal False ([.record dG (dCtx bottom) 0, .run, .reset 7 0] ++ [.record dG (dCtx dCompute) 0]) ∧
    ∀ k, k ≠ .compute → ((dAfter k d37 [5] ([.record dG (dCtx bottom) 0, .run, .reset 7 0] ++
      [.record dG (dCtx dCompute) 0])).map fun D => D.made.length) = some 2 := by
  refine ⟨by decide, by simp [OnlyIndex], by simp [Legal], ?_⟩
  intro k hk
  cases k with
  | compute => exact absurd rfl hk
  | quad => decide
  | mesh => decide

/-! ### C72: what is drawn covers the render area -/

/-- Whatever render pass a pipeline was made with, its viewport and scissor are at the configured position and have the
configured size. -/
theorem viewport_configured (D : St) (position : Nat × Nat) (w h handle : Nat) (s : States)
    (e : D.states position w h handle = some s) : (s.x, s.y) = position ∧ s.width = w ∧ s.height = h := by
  obtain ⟨o, -, rfl⟩ := Option.map_eq_some_iff.1 e
  exact ⟨rfl, rfl, rfl⟩

/-- C72: after any use, the draws recorded for an index can reach every pixel of the render area (if it has any) exactly when
the configured position is the origin and no target is larger than the configured size. -/
theorem area_covered_iff (k : Pipe.Kind) (hk : k ≠ .compute) (sepDS : Bool) (w h : Nat) (p : RunPass) (pass : Nat)
    (is : List Pipe.AddImage) (bs : List Pipe.AddBuffer) (hi : p.images = is.map (·.attach pass)) (programs : List Nat)
    (creator : Option (Nat × (Nat → Nat))) (n : Nat) (hd : ((Pipe.promised is bs).map (·.1)).Nodup) (hn : 0 < n)
    (hs : (Pipe.promised is bs).length * n < 2 ^ 32) (ops : List Op) (G : GraphSt) (c : Ctx) (i : Nat)
    (hL : Legal False (ops ++ [.record G c i])) (D : St)
    (hx : execAll k sepDS w h p (St.new p (bs.map (·.attach pass)) programs creator n) (ops ++ [.record G c i]) = some D)
    (position : Nat × Nat) :
    ∃ pipe layout set P s m, D.current i = some m ∧ D.pipe.evs.getLast? = some (.bind pipe layout set) ∧
      (Pipe.after Pipe.Dev.empty D.pipe.evs).pipes pipe = some P ∧ D.states position w h P.renderPass = some s ∧
      (0 < m.obj.width → 0 < m.obj.height →
        ((∀ x y, inArea m.obj x y → s.covers x y) ↔ position = (0, 0) ∧ NoLarger p w h)) := by
  obtain ⟨D0, prepared, h0, I, ⟨m, f, c', hm, hin⟩, pipe, layout, set, P, b1, b2, b3⟩ :=
    ends_with_record hk (single := decide ((St.new p (bs.map (·.attach pass)) programs creator n).pipe.programs.length = 1))
      (A := fun made _ r => ∃ m ∈ made, m.handle = r) (Q := fun _ _ => True)
      ⟨fun made G c i m _ _ => ⟨⟨m, by simp, rfl⟩, fun j r _ ⟨m', h1, h2⟩ => ⟨m', by simp [h1], h2⟩⟩,
       fun made G c i m _ hm _ => ⟨m, List.mem_of_mem_head? hm, rfl⟩,
       fun made q i m _ hm => ⟨m, List.mem_of_mem_head? hm, rfl⟩⟩
      ops G c i _ D (dinv_new hi hd hn hs) rfl (madeWith_new _ _ _ _ _ _) hL (fun _ _ _ _ _ _ => trivial) hx
  obtain ⟨m', hm', hh⟩ := b3
  have ho := object_of I.distinct hm'
  rw [hh] at ho
  obtain ⟨G2, c2, x2, e2⟩ := I.objs m (current_mem hm).1
  refine ⟨pipe, layout, set, P, prepareStates position w h m'.obj, m, hm, b1, b2, by rw [St.states, ho]; rfl, ?_⟩
  intro pw ph
  have e2' : RPass.initialise sepDS G2 w h p m.index none c2 = some (m.obj, true, x2.2) := by
    rcases initialise_fresh e2 with ⟨h1, -⟩ | ⟨-, h2⟩
    · simp only at h1
      rw [e2, ← h1]
    · cases h2
  obtain ⟨o0, o1, ea, ew, eh, -⟩ := RPass.made_area e2'
  obtain ⟨⟨a1, a2, -, a4⟩, g1, g2, -⟩ := RPass.areaAll ea
  constructor
  · intro hc
    have z := hc 0 0 ⟨pw, ph⟩
    have z' := hc (m.obj.width - 1) (m.obj.height - 1) ⟨by omega, by omega⟩
    simp only [States.covers, prepareStates] at z z'
    refine ⟨Prod.ext (by simp; omega) (by simp; omega), ?_⟩
    intro a ha ht v hv
    obtain ⟨v', hv', q1, q2, -⟩ := a4 a ha ht
    rw [hv] at hv'
    cases hv'
    simp only [RPass.extentOf] at q1 q2
    generalize v.image.width >>> v.range.baseMip = X at *
    generalize v.image.height >>> v.range.baseMip = Y at *
    omega
  · rintro ⟨rfl, hl⟩ x y ⟨hx, hy⟩
    have w1 : m.obj.width ≤ w := by
      rw [ew]
      rcases g1 with g1 | ⟨a, ha, ht, v, hv, e⟩
      · omega
      · rw [← e]; exact (hl a ha ht v hv).1
    have w2 : m.obj.height ≤ h := by
      rw [eh]
      rcases g2 with g2 | ⟨a, ha, ht, v, hv, e⟩
      · omega
      · rw [← e]; exact (hl a ha ht v hv).2
    simp only [States.covers, prepareStates]
    omega

/-- The configured size is left out of the configuration by default (0×0): then nothing is drawn at all, whatever the targets. -/
theorem no_size_draws_nothing (D : St) (position : Nat × Nat) (w h handle : Nat) (hz : w = 0 ∨ h = 0) (s : States)
    (e : D.states position w h handle = some s) (x y : Nat) : ¬ s.covers x y := by
  obtain ⟨h1, h2, h3⟩ := viewport_configured D position w h handle s e
  simp only [States.covers]
  omega

set_option maxRecDepth 20000 in
/-- Targets of 16×16: covered with a configured size of 16×16, not with none, nor with 8×8; each time the whole
targets are the render area. -/
theorem coverage_examples : NoLarger (dPass d37) 16 16 ∧ ¬ NoLarger (dPass d37) 8 8 ∧ ∀ k, k ≠ .compute → ∀ z, z = 0 ∨ z = 8 ∨ z = 16 →
    ((execAll k false z z (dPass d37) (St.new (dPass d37) [] [5, 6] none 2) dBack).bind fun D =>
      (D.current 0).bind fun m => (D.states (0, 0) z z m.handle).map fun s => (m.obj.width, m.obj.height, s.width, s.height)) =
      some (16, 16, z, z) := by
  have hall : ∀ a ∈ (dPass d37).images, a.img.views.all (fun v => (v.image.width >>> v.range.baseMip, v.image.height >>> v.range.baseMip) == (16, 16)) = true := by
    decide
  refine ⟨?_, ?_, ?_⟩
  · intro a ha _ v hv
    have := hall a ha
    simp only [List.all_eq_true, beq_iff_eq, Prod.mk.injEq] at this
    have := this v (view_mem hv)
    omega
  · intro h
    have := (h ((⟨.outputColour, 0, [dView 1 37, dView 2 37]⟩ : Pipe.AddImage).attach 5) (by simp [dPass, d37]) (by decide)
      (dView 1 37) (by decide)).1
    revert this
    decide
  · intro k hk z hz
    cases k with
    | compute => exact absurd rfl hk
    | quad => rcases hz with rfl | rfl | rfl <;> decide
    | mesh => rcases hz with rfl | rfl | rfl <;> decide

end Verif.Draw
