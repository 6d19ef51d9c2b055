import Verif.Lemmas.Flight
import Verif.Props.Pipeline
import Verif.Props.Rebuild
/-
C101: what submissions in flight use is neither destroyed nor changed.
-/
namespace Verif.Flight
open Verif.Pipe (Kind Ev)

/-! ### One pass -/

/-- How many places of the pass hold a handle. -/
def held (P : PassSt) (h : Nat) : Nat := (cur P.pipe).count h + P.targets.count h

/-- A handle not answered yet counts as held once. -/
def proom (P : PassSt) (h : Nat) : Nat := if h < P.pipe.next then held P h else 1

structure PFresh (P : PassSt) : Prop where
  pipe : Fresh P.pipe
  queue : P.pipe.queue = []
  targets : ∀ h, P.pipe.next ≤ h → P.targets.count h = 0

/-- The objects destroyed by calls. -/
def dest (cs : List Call) : List Obj := cs.filterMap fun | .destroy o => some o | _ => none

theorem dest_append (a b : List Call) : dest (a ++ b) = dest a ++ dest b := List.filterMap_append

theorem obj_count (g k h : Nat) (l : List Nat) : (l.map fun x => (⟨g, k, x⟩ : Obj)).count ⟨g, k, h⟩ = l.count h := by
  induction l with
  | nil => rfl
  | cons a l ih => rw [List.map_cons, List.count_cons, List.count_cons, ih]; congr 1; simp

theorem obj_count_ne {g k : Nat} {o : Obj} (l : List Nat) (h : ¬ (o.graph = g ∧ o.pass = k)) :
    (l.map fun x => (⟨g, k, x⟩ : Obj)).count o = 0 := by
  rw [List.count_eq_zero]
  intro hm
  obtain ⟨x, -, rfl⟩ := List.mem_map.1 hm
  exact h ⟨rfl, rfl⟩

/-- What is known of one operation on pass `k` of graph `g`. -/
structure DidOk (g k : Nat) (P : PassSt) (D : Did) : Prop where
  fresh : PFresh D.pass
  kind : D.pass.kind = P.kind
  next : P.pipe.next ≤ D.pass.pipe.next
  calls : ∀ c ∈ D.calls, (∃ h, c = .destroy ⟨g, k, h⟩ ∧ h ≠ 0) ∨ (∃ h, c = .update ⟨g, k, h⟩ ∧ P.pipe.next ≤ h)
  pushed : ∃ Q : List Nat, D.pushed = Q.map (fun h => ⟨g, k, h⟩) ∧ ∀ h ∈ Q, h ≠ 0 ∧ h < D.pass.pipe.next
  room : ∀ h, h ≠ 0 → proom D.pass h + D.pushed.count ⟨g, k, h⟩ + (dest D.calls).count ⟨g, k, h⟩ ≤ proom P h
  uses : ∀ o ∈ D.uses, o.graph = g ∧ o.pass = k ∧ o.handle ≠ 0 ∧ o.handle < D.pass.pipe.next ∧ 1 ≤ held D.pass o.handle

theorem dest_holder (g k : Nat) (E : List Ev) :
    dest (E.filterMap (evCall g k)) = (E.filterMap destroyed).map fun h => ⟨g, k, h⟩ := by
  induction E with
  | nil => rfl
  | cons e E ih =>
    cases e <;> simp only [List.filterMap_cons, evCall, destroyed, written, Option.map_none, Option.map_some, List.map_cons] <;>
      simpa [dest] using ih

theorem mem_holder {g k : Nat} {E : List Ev} {c : Call} (h : c ∈ E.filterMap (evCall g k)) :
    (∃ x ∈ E.filterMap destroyed, c = .destroy ⟨g, k, x⟩) ∨ (∃ x ∈ E.filterMap written, c = .update ⟨g, k, x⟩) := by
  obtain ⟨e, he, hc⟩ := List.mem_filterMap.1 h
  unfold evCall at hc
  split at hc
  · rename_i x hx
    exact Or.inl ⟨x, List.mem_filterMap.2 ⟨e, he, hx⟩, (Option.some.inj hc).symm⟩
  · obtain ⟨x, hx, e'⟩ := Option.map_eq_some_iff.1 hc
    exact Or.inr ⟨x, List.mem_filterMap.2 ⟨e, he, hx⟩, e'.symm⟩

theorem resetPass_ok {g k : Nat} {P : PassSt} (F : PFresh P) {p i : Nat} {D : Did} (h : resetPass g k P p i = some D) :
    DidOk g k P D ∧ dest D.calls = [] ∧ D.uses = [] := by
  obtain ⟨s, hs, rfl⟩ := Option.map_eq_some_iff.1 h
  obtain ⟨E, M, hE⟩ := moves_reset F.pipe hs
  obtain ⟨Q, hQ, nQ⟩ := M.queue
  have hcalls : holderCalls g k P.pipe s = E.filterMap (evCall g k) := by
    unfold holderCalls; rw [M.evs, List.drop_left]
  have hd : dest (holderCalls g k P.pipe s) = [] := by rw [hcalls, dest_holder, hE]; rfl
  rw [F.queue, List.nil_append] at hQ
  have hqn : ∀ h ∈ s.queue, h < s.next := fun h hh => Classical.byContradiction fun hc => by
    have := (M.fresh.unheld h (by omega)).2
    rw [List.count_eq_zero] at this
    exact this hh
  refine ⟨⟨⟨⟨M.fresh.pos, fun h hh => ⟨(M.fresh.unheld h hh).1, rfl⟩⟩, rfl, fun h hh => F.targets h (Nat.le_trans M.next hh)⟩, rfl,
    M.next, fun c hc => ?_, ⟨s.queue, rfl, fun h hh => ⟨nQ h (hQ ▸ hh), hqn h hh⟩⟩, fun h h0 => ?_, fun o ho => ?_⟩, hd, rfl⟩
  · simp only [hcalls] at hc
    rcases mem_holder hc with ⟨x, hx, -⟩ | ⟨x, hx, e⟩
    · rw [hE] at hx; cases hx
    · exact Or.inr ⟨x, e, M.writes x hx⟩
  · have h1 := M.room h h0
    have h2 := M.next
    have h3 := F.targets h
    have h4 := F.pipe.unheld h
    have h5 := M.fresh.unheld h
    simp only [hd, List.count_nil, obj_count]
    simp only [room, proom, held, cur, F.queue, List.count_nil] at *
    by_cases c1 : h < P.pipe.next
    · rw [if_pos c1, if_pos (by omega)] at *; omega
    · have := h3 (by omega)
      rw [if_neg c1] at *
      by_cases c2 : h < s.next
      · rw [if_pos c2] at *; omega
      · have := (h5 (by omega)).2
        rw [if_neg c2] at *; omega
  · cases ho

theorem recordPass_ok {g k : Nat} {P : PassSt} (F : PFresh P) {i : Nat} {fresh : Bool} {D : Did}
    (h : recordPass g k P i fresh = some D) :
    DidOk g k P D ∧ (fresh = false ∨ P.kind = .compute → dest D.calls = []) := by
  obtain ⟨s, hs, rfl⟩ := Option.map_eq_some_iff.1 h
  obtain ⟨t, E, bp, bl, bx, M, hE, e1, e2, e3, e4, hb⟩ := moves_record F.pipe hs
  obtain ⟨Q, hQ, nQ⟩ := M.queue
  have hP : (if fresh = true ∧ P.kind ≠ .compute then { P.pipe with next := P.pipe.next + 1 } else P.pipe : Pipe.St).evs = P.pipe.evs := by
    split <;> rfl
  have hPq : (if fresh = true ∧ P.kind ≠ .compute then { P.pipe with next := P.pipe.next + 1 } else P.pipe : Pipe.St).queue = [] := by
    split <;> exact F.queue
  have hevs : s.evs.drop P.pipe.evs.length = E ++ [.bind bp bl bx] := by
    rw [e4, M.evs, hP, List.append_assoc, List.drop_left]
  have hcalls : holderCalls g k P.pipe s = E.filterMap (evCall g k) := by
    unfold holderCalls; rw [hevs, List.filterMap_append]; simp [evCall, destroyed, written]
  rw [hPq, List.nil_append, ← e2] at hQ
  have hFs : ∀ h, s.next ≤ h → (cur s).count h = 0 ∧ s.queue.count h = 0 := fun h hh => by
    rw [e1, e2]; exact M.fresh.unheld h (by omega)
  have hsp : 0 < s.next := by rw [e3]; exact M.fresh.pos
  have hqn : ∀ h ∈ s.queue, h < s.next := fun h hh => Classical.byContradiction fun hc => by
    have := (hFs h (by omega)).2
    rw [List.count_eq_zero] at this
    exact this hh
  have hcn : ∀ h ∈ cur s, h < s.next := fun h hh => Classical.byContradiction fun hc => by
    have := (hFs h (by omega)).1
    rw [List.count_eq_zero] at this
    exact this hh
  have hbinds : (s.evs.drop P.pipe.evs.length).flatMap (used s) = [bp, bl, bx, s.pool, s.setLayout] := by
    rw [hevs, List.flatMap_append, M.binds]; rfl
  by_cases hr : fresh = true ∧ P.kind ≠ .compute
  · rw [if_pos hr] at M
    have hrb : (fresh && P.kind != .compute) = true := by simp [hr.1, hr.2]
    have hkc : (P.kind != .compute) = true := by simp [hr.2]
    have hn : P.pipe.next + 1 ≤ s.next := by rw [e3]; exact M.next
    -- what the render pass holder destroys
    have hold : dest (cleanupTarget g k P i) = [] ∧ cleanupTarget g k P i = []
        ∨ ∃ (h : Nat) (hi : i < P.targets.length), P.targets[i] = h ∧ h ≠ 0 ∧ cleanupTarget g k P i = [.destroy ⟨g, k, h⟩] := by
      unfold cleanupTarget
      cases hx : P.targets[i]? with
      | none => exact Or.inl ⟨rfl, rfl⟩
      | some h =>
        obtain ⟨hi, ex⟩ := List.getElem?_eq_some_iff.1 hx
        by_cases h0 : h = 0
        · simp only [if_pos h0]; exact Or.inl ⟨rfl, trivial⟩
        · simp only [if_neg h0]; exact Or.inr ⟨h, hi, ex, h0, rfl⟩
    have hcount : ∀ h, h ≠ 0 → (P.targets.set i P.pipe.next).count h + (dest (cleanupTarget g k P i)).count ⟨g, k, h⟩
        ≤ P.targets.count h + if P.pipe.next = h then 1 else 0 := by
      intro h h0
      rcases hold with ⟨hd, -⟩ | ⟨x, hi, ex, hx0, hd⟩
      · rw [hd, List.count_nil]
        exact count_set_le _ _ _ _
      · have h1 := count_set' P.targets i P.pipe.next h hi
        rw [ex] at h1
        have h2 : (dest (cleanupTarget g k P i)).count ⟨g, k, h⟩ = if x = h then 1 else 0 := by
          rw [hd]
          show List.count (⟨g, k, h⟩ : Obj) [⟨g, k, x⟩] = _
          rw [List.count_cons, List.count_nil]
          by_cases c : x = h <;> simp [c]
        omega
    refine ⟨⟨⟨⟨hsp, fun h hh => ⟨(hFs h hh).1, rfl⟩⟩, rfl, fun h hh => ?_⟩, rfl, by show P.pipe.next ≤ s.next; omega, fun c hc => ?_,
      ⟨s.queue, rfl, fun h hh => ⟨nQ h (hQ ▸ hh), hqn h hh⟩⟩, fun h h0 => ?_, fun o ho => ?_⟩, ?_⟩
    · simp only [hrb, if_true]
      have h1 := count_set_le P.targets i P.pipe.next h
      have h2 := F.targets h (by simp only at hh; omega)
      rw [if_neg (by simp only at hh; omega)] at h1
      omega
    · simp only [hrb, if_true, List.mem_append] at hc
      rcases hc with hc | hc
      · rcases hold with ⟨-, hd⟩ | ⟨x, -, -, hx0, hd⟩
        · rw [hd] at hc; cases hc
        · rw [hd, List.mem_singleton] at hc
          exact Or.inl ⟨x, hc, hx0⟩
      · rw [hcalls] at hc
        rcases mem_holder hc with ⟨x, hx, e⟩ | ⟨x, hx, e⟩
        · exact Or.inl ⟨x, e, M.nonzero x hx⟩
        · have := M.writes x hx
          exact Or.inr ⟨x, e, by simp only at this; omega⟩
    · have h1 := M.room h h0
      have h2 := hcount h h0
      have h3 := F.targets h
      have h4 := F.pipe.unheld h
      have h5 := hFs h
      simp only [hrb, if_true, dest_append, List.count_append, obj_count]
      have e5 : (dest (holderCalls g k P.pipe s)).count ⟨g, k, h⟩ = (E.filterMap destroyed).count h := by
        rw [hcalls, dest_holder, obj_count]
      rw [e5]
      have r1 : room t h = if h < s.next then (cur s).count h + s.queue.count h else 1 := by
        unfold room; rw [e1, e2, e3]
      have r2 : room { P.pipe with next := P.pipe.next + 1 } h = if h < P.pipe.next + 1 then (cur P.pipe).count h else 1 := by
        unfold room; simp only [F.queue, List.count_nil, Nat.add_zero]; rfl
      rw [r1, r2] at h1
      have g1 : proom ⟨P.kind, { s with queue := [] }, P.targets.set i P.pipe.next⟩ h
          = if h < s.next then (cur s).count h + (P.targets.set i P.pipe.next).count h else 1 := rfl
      rw [g1]
      unfold proom held
      by_cases c1 : h < P.pipe.next
      · rw [if_pos (by omega), if_pos (by omega)] at h1
        rw [if_neg (by omega)] at h2
        rw [if_pos (by omega), if_pos c1]
        omega
      · have h6 := h3 (by omega)
        have h7 := (h4 (by omega)).1
        rw [if_neg c1]
        by_cases c2 : h = P.pipe.next
        · rw [if_pos (by omega), if_pos (by omega)] at h1
          rw [if_pos c2.symm] at h2
          rw [if_pos (by omega)]
          omega
        · rw [if_neg (show ¬ P.pipe.next = h from fun e => c2 e.symm)] at h2
          rw [if_neg (show ¬ h < P.pipe.next + 1 by omega)] at h1
          by_cases c3 : h < s.next
          · rw [if_pos c3] at h1 ⊢; omega
          · have := h5 (by omega)
            rw [if_neg c3] at h1 ⊢; omega
    · simp only [if_true, hkc, hbinds, List.mem_map, List.mem_filter, List.mem_append] at ho
      obtain ⟨x, ⟨hx, hx0⟩, rfl⟩ := ho
      have hx0 : x ≠ 0 := by simpa using hx0
      rcases hx with hx | hx
      · have hx : (P.targets.set i P.pipe.next)[i]? = some x := by simpa [hr.1] using hx
        have hm := List.mem_of_getElem? hx
        have hx' : x = P.pipe.next := by
          by_cases hi : i < P.targets.length
          · rw [List.getElem?_set_self hi] at hx; exact (Option.some.inj hx).symm
          · rw [List.getElem?_eq_none (by simp; omega)] at hx; cases hx
        refine ⟨rfl, rfl, hx0, by show x < s.next; omega, ?_⟩
        have := List.count_pos_iff.2 hm
        simp only [held, hrb, if_true]
        omega
      · have hm := hb x hx
        refine ⟨rfl, rfl, hx0, hcn x hm, ?_⟩
        have : 0 < (cur s).count x := List.count_pos_iff.2 hm
        show 1 ≤ (cur s).count x + _
        omega
    · intro hh
      rcases hh with hh | hh
      · rw [hr.1] at hh; cases hh
      · exact absurd hh hr.2
  · rw [if_neg hr] at M
    have hrb : (fresh && P.kind != .compute) = false := by
      cases fresh
      · rfl
      · simp only [Bool.true_and, bne_eq_false_iff_eq]
        exact Classical.byContradiction fun hc => hr ⟨rfl, hc⟩
    have hfd : fresh = false ∨ P.kind = .compute := by
      cases fresh
      · exact Or.inl rfl
      · exact Or.inr (Classical.byContradiction fun hc => hr ⟨rfl, hc⟩)
    have hn : P.pipe.next ≤ s.next := by rw [e3]; exact M.next
    have hd0 : dest (holderCalls g k P.pipe s) = [] := by rw [hcalls, dest_holder, hE hfd]; rfl
    refine ⟨⟨⟨⟨hsp, fun h hh => ⟨(hFs h hh).1, rfl⟩⟩, rfl, fun h hh => ?_⟩, rfl, hn, fun c hc => ?_,
      ⟨s.queue, rfl, fun h hh => ⟨nQ h (hQ ▸ hh), hqn h hh⟩⟩, fun h h0 => ?_, fun o ho => ?_⟩, fun _ => ?_⟩
    · simp only [hrb, Bool.false_eq_true, if_false]
      exact F.targets h (Nat.le_trans hn hh)
    · simp only [hrb, Bool.false_eq_true, if_false, List.nil_append, hcalls] at hc
      rcases mem_holder hc with ⟨x, hx, -⟩ | ⟨x, hx, e⟩
      · rw [hE hfd] at hx; cases hx
      · exact Or.inr ⟨x, e, M.writes x hx⟩
    · have h1 := M.room h h0
      have h3 := F.targets h
      have h4 := F.pipe.unheld h
      have h5 := hFs h
      simp only [hrb, Bool.false_eq_true, if_false, List.nil_append, hd0, List.count_nil, obj_count]
      have r1 : room t h = if h < s.next then (cur s).count h + s.queue.count h else 1 := by
        unfold room; rw [e1, e2, e3]
      have r2 : room P.pipe h = if h < P.pipe.next then (cur P.pipe).count h else 1 := by
        unfold room; simp only [F.queue, List.count_nil, Nat.add_zero]
      rw [r1, r2] at h1
      have g1 : proom ⟨P.kind, { s with queue := [] }, P.targets⟩ h
          = if h < s.next then (cur s).count h + P.targets.count h else 1 := rfl
      rw [g1]
      unfold proom held
      by_cases c1 : h < P.pipe.next
      · rw [if_pos (by omega), if_pos (by omega)] at h1
        rw [if_pos (by omega), if_pos c1]
        omega
      · have h6 := h3 (by omega)
        rw [if_neg c1] at h1 ⊢
        by_cases c3 : h < s.next
        · rw [if_pos c3] at h1 ⊢; omega
        · have := h5 (by omega)
          rw [if_neg c3] at h1 ⊢; omega
    · simp only [hrb, Bool.false_eq_true, if_false, hbinds, List.mem_map, List.mem_filter, List.mem_append] at ho
      obtain ⟨x, ⟨hx, hx0⟩, rfl⟩ := ho
      have hx0 : x ≠ 0 := by simpa using hx0
      rcases hx with hx | hx
      · have hx : P.targets[i]? = some x := by
          split at hx
          · simpa using hx
          · cases hx
        have hm := List.mem_of_getElem? hx
        have hp := List.count_pos_iff.2 hm
        have hlt : x < P.pipe.next := Classical.byContradiction fun hc => by
          have := F.targets x (by omega); omega
        refine ⟨rfl, rfl, hx0, by show x < s.next; omega, ?_⟩
        simp only [held, hrb, Bool.false_eq_true, if_false]
        omega
      · have hm := hb x hx
        refine ⟨rfl, rfl, hx0, hcn x hm, ?_⟩
        have : 0 < (cur s).count x := List.count_pos_iff.2 hm
        show 1 ≤ (cur s).count x + _
        omega
    · simp only [hrb, Bool.false_eq_true, if_false, List.nil_append]
      exact hd0

/-! ### The graphs -/

/-- How many places of the context hold an object; one not made yet counts as held once. -/
def sroom (s : St) (o : Obj) : Nat :=
  if o.handle < (s.passes o.graph o.pass).pipe.next then held (s.passes o.graph o.pass) o.handle + s.queue.count o else 1

/-- Nothing is held before it is made. -/
structure SFresh (s : St) : Prop where
  pass : ∀ g k, PFresh (s.passes g k)
  queue : ∀ o ∈ s.queue, o.handle ≠ 0 ∧ o.handle < (s.passes o.graph o.pass).pipe.next

/-- From `s` to `s'`, with calls of passes of graph `g`. -/
structure Moved (g : Nat) (s s' : St) (cs : List Call) : Prop where
  room : ∀ o, o.handle ≠ 0 → sroom s' o + (dest cs).count o ≤ sroom s o
  fresh : SFresh s'
  next : ∀ g k, (s.passes g k).pipe.next ≤ (s'.passes g k).pipe.next
  kind : ∀ g k, (s'.passes g k).kind = (s.passes g k).kind
  calls : ∀ c ∈ cs, (∃ o, c = .destroy o ∧ o.graph = g ∧ o.handle ≠ 0)
    ∨ (∃ o, c = .update o ∧ (s.passes o.graph o.pass).pipe.next ≤ o.handle)
  queue : ∃ Q, s'.queue = s.queue ++ Q ∧ ∀ o ∈ Q, o.graph = g

theorem Moved.refl (g : Nat) {s : St} (h : SFresh s) : Moved g s s [] :=
  ⟨fun _ _ => by simp [dest], h, fun _ _ => Nat.le_refl _, fun _ _ => rfl, fun _ h => (by cases h),
    ⟨[], by simp, fun _ h => (by cases h)⟩⟩

theorem Moved.trans {g : Nat} {s t u : St} {a b : List Call} (A : Moved g s t a) (B : Moved g t u b) : Moved g s u (a ++ b) := by
  refine ⟨fun o h0 => ?_, B.fresh, fun g k => Nat.le_trans (A.next g k) (B.next g k), fun g k => by rw [B.kind, A.kind],
    fun c hc => ?_, ?_⟩
  · rw [dest_append, List.count_append]
    have := A.room o h0
    have := B.room o h0
    omega
  · rcases List.mem_append.1 hc with hc | hc
    · exact A.calls c hc
    · rcases B.calls c hc with h | ⟨o, e, h⟩
      · exact Or.inl h
      · exact Or.inr ⟨o, e, Nat.le_trans (A.next _ _) h⟩
  · obtain ⟨Q, hQ, nQ⟩ := A.queue
    obtain ⟨R, hR, nR⟩ := B.queue
    refine ⟨Q ++ R, by rw [hR, hQ, List.append_assoc], fun o ho => ?_⟩
    rcases List.mem_append.1 ho with ho | ho
    · exact nQ o ho
    · exact nR o ho

theorem put_same (s : St) (g k : Nat) (D : Did) : (s.put g k D).passes g k = D.pass := by simp [St.put]
theorem put_other {s : St} {g k : Nat} {D : Did} {g' k' : Nat} (h : ¬ (g' = g ∧ k' = k)) :
    (s.put g k D).passes g' k' = s.passes g' k' := by simp [St.put, h]

theorem moved_put {s : St} (F : SFresh s) {g k : Nat} {D : Did} (h : DidOk g k (s.passes g k) D) :
    Moved g s (s.put g k D) D.calls := by
  have hnext : ∀ g' k', (s.passes g' k').pipe.next ≤ ((s.put g k D).passes g' k').pipe.next := by
    intro g' k'
    by_cases c : g' = g ∧ k' = k
    · obtain ⟨rfl, rfl⟩ := c; rw [put_same]; exact h.next
    · rw [put_other c]; exact Nat.le_refl _
  refine ⟨fun o h0 => ?_, ⟨fun g' k' => ?_, fun o ho => ?_⟩, hnext, fun g' k' => ?_, fun c hc => ?_, ?_⟩
  · obtain ⟨g', k', x⟩ := o
    simp only at h0
    by_cases c : g' = g ∧ k' = k
    · obtain ⟨rfl, rfl⟩ := c
      have h1 := h.room x h0
      have h2 := h.next
      unfold sroom
      simp only [put_same]
      have e : (s.put g' k' D).queue = s.queue ++ D.pushed := rfl
      rw [e, List.count_append]
      unfold proom at h1
      by_cases c1 : x < (s.passes g' k').pipe.next
      · rw [if_pos c1, if_pos (by omega)] at h1
        rw [if_pos c1, if_pos (by omega)]
        omega
      · rw [if_neg c1] at h1 ⊢
        by_cases c2 : x < D.pass.pipe.next
        · rw [if_pos c2] at h1 ⊢
          have h3 : s.queue.count ⟨g', k', x⟩ = 0 := by
            rw [List.count_eq_zero]
            exact fun hm => c1 (F.queue _ hm).2
          omega
        · rw [if_neg c2] at h1 ⊢; omega
    · unfold sroom
      simp only [put_other c]
      have e : (s.put g k D).queue = s.queue ++ D.pushed := rfl
      obtain ⟨Q, hQ, -⟩ := h.pushed
      have e2 : D.pushed.count ⟨g', k', x⟩ = 0 := by rw [hQ]; exact obj_count_ne Q c
      have e3 : (dest D.calls).count ⟨g', k', x⟩ = 0 := by
        rw [List.count_eq_zero]
        intro hm
        obtain ⟨cc, hcc, hx⟩ := List.mem_filterMap.1 hm
        rcases h.calls cc hcc with ⟨y, rfl, -⟩ | ⟨y, rfl, -⟩
        · simp only [Option.some.injEq, Obj.mk.injEq] at hx
          exact c ⟨hx.1.symm, hx.2.1.symm⟩
        · simp at hx
      rw [e, List.count_append, e2, e3]
      simp
  · by_cases c : g' = g ∧ k' = k
    · obtain ⟨rfl, rfl⟩ := c; rw [put_same]; exact h.fresh
    · rw [put_other c]; exact F.pass _ _
  · rcases List.mem_append.1 ho with ho | ho
    · obtain ⟨h1, h2⟩ := F.queue o ho
      exact ⟨h1, Nat.lt_of_lt_of_le h2 (hnext _ _)⟩
    · obtain ⟨Q, hQ, nQ⟩ := h.pushed
      rw [hQ] at ho
      obtain ⟨x, hx, rfl⟩ := List.mem_map.1 ho
      exact ⟨(nQ x hx).1, by simp only [put_same]; exact (nQ x hx).2⟩
  · by_cases c : g' = g ∧ k' = k
    · obtain ⟨rfl, rfl⟩ := c; rw [put_same]; exact h.kind
    · rw [put_other c]
  · rcases h.calls c hc with ⟨x, e, h0⟩ | ⟨x, e, hx⟩
    · exact Or.inl ⟨_, e, rfl, h0⟩
    · exact Or.inr ⟨_, e, hx⟩
  · obtain ⟨Q, hQ, nQ⟩ := h.pushed
    refine ⟨D.pushed, rfl, fun o ho => ?_⟩
    rw [hQ] at ho
    obtain ⟨x, hx, rfl⟩ := List.mem_map.1 ho
    rfl

/-- The destruction of a pass. -/
theorem destroyPass_ok {g k : Nat} {P : PassSt} (F : PFresh P) : DidOk g k P (destroyPass g k P) := by
  obtain ⟨E, M⟩ := moves_cleanup F.pipe
  obtain ⟨Q, hQ, nQ⟩ := M.queue
  have hq : P.pipe.cleanup.queue = [] := F.queue
  have hcalls : holderCalls g k P.pipe P.pipe.cleanup = E.filterMap (evCall g k) := by
    unfold holderCalls; rw [M.evs, List.drop_left]
  have ht : ∀ l : List Nat, dest (l.map fun h => Call.destroy ⟨g, k, h⟩) = l.map fun h => ⟨g, k, h⟩ := by
    intro l
    induction l with
    | nil => rfl
    | cons a l ih => simp only [List.map_cons]; rw [← ih]; rfl
  have hz : ∀ h, h ≠ 0 → (P.targets.map fun _ => 0).count h = 0 := by
    intro h h0
    rw [List.count_eq_zero]
    intro hm
    obtain ⟨_, -, e⟩ := List.mem_map.1 hm
    exact h0 e.symm
  refine ⟨⟨⟨M.fresh.pos, fun h hh => ⟨(M.fresh.unheld h hh).1, rfl⟩⟩, rfl, fun h hh => hz h ?_⟩, rfl, M.next, fun c hc => ?_,
    ⟨[], by simp only [destroyPass, hq, List.map_nil], fun _ h => (by cases h)⟩, fun h h0 => ?_, fun o ho => (by cases ho)⟩
  · have := M.fresh.pos
    simp only [destroyPass] at hh
    omega
  · rcases List.mem_append.1 hc with hc | hc
    · obtain ⟨x, hx, rfl⟩ := List.mem_map.1 hc
      exact Or.inl ⟨x, rfl, by simpa using (List.mem_filter.1 hx).2⟩
    · rw [hcalls] at hc
      rcases mem_holder hc with ⟨x, hx, e⟩ | ⟨x, hx, e⟩
      · exact Or.inl ⟨x, e, M.nonzero x hx⟩
      · exact Or.inr ⟨x, e, M.writes x hx⟩
  · have h1 := M.room h h0
    have h2 := M.next
    have h3 := F.targets h
    have h4 : (P.targets.filter (· ≠ 0)).count h ≤ P.targets.count h := List.Sublist.count_le h (List.filter_sublist)
    have h5 := hz h h0
    have h6 := M.fresh.unheld h
    have e : (dest (destroyPass g k P).calls).count ⟨g, k, h⟩ = (P.targets.filter (· ≠ 0)).count h + (E.filterMap destroyed).count h := by
      simp only [destroyPass]
      rw [dest_append, List.count_append, ht, obj_count, hcalls, dest_holder, obj_count]
    rw [e]
    have e2 : (destroyPass g k P).pushed.count ⟨g, k, h⟩ = 0 := by simp only [destroyPass, hq]; rfl
    rw [e2]
    have r1 : room P.pipe.cleanup h = if h < P.pipe.cleanup.next then (cur P.pipe.cleanup).count h else 1 := by
      unfold room; simp only [hq, List.count_nil, Nat.add_zero]
    have r2 : room P.pipe h = if h < P.pipe.next then (cur P.pipe).count h else 1 := by
      unfold room; simp only [F.queue, List.count_nil, Nat.add_zero]
    rw [r1, r2] at h1
    have g1 : proom (destroyPass g k P).pass h
        = if h < P.pipe.cleanup.next then (cur P.pipe.cleanup).count h + (P.targets.map fun _ => 0).count h else 1 := rfl
    rw [g1, h5]
    unfold proom held
    by_cases c1 : h < P.pipe.next
    · rw [if_pos c1, if_pos (by omega)] at h1
      rw [if_pos c1, if_pos (by omega)]; omega
    · have := h3 (by omega)
      rw [if_neg c1] at h1 ⊢
      by_cases c2 : h < P.pipe.cleanup.next
      · rw [if_pos c2] at h1 ⊢; omega
      · rw [if_neg c2] at h1 ⊢; omega

theorem destroyPasses_moved {g : Nat} : ∀ (ks : List Nat) (s : St), SFresh s →
    Moved g s (destroyPasses g ks s).1 (destroyPasses g ks s).2
  | [], _, F => Moved.refl g F
  | k :: ks, s, F => by
    have M1 := moved_put F (destroyPass_ok (g := g) (k := k) (F.pass g k))
    exact M1.trans (destroyPasses_moved ks _ M1.fresh)

theorem recordPasses_moved {g : Nat} : ∀ (rs : Recs) (s : St), SFresh s → (rs.map (·.1)).Nodup →
    ∀ r, recordPasses g rs s = some r →
    Moved g s r.1 r.2.1 ∧ (∀ k, k ∉ rs.map (·.1) → r.1.passes g k = s.passes g k) ∧
    ∀ o ∈ r.2.2, o.graph = g ∧ o.handle ≠ 0 ∧ o.handle < (r.1.passes o.graph o.pass).pipe.next
      ∧ 1 ≤ held (r.1.passes o.graph o.pass) o.handle
  | [], s, F, _, r, h => by
    obtain rfl := Option.some.inj h
    exact ⟨Moved.refl g F, fun _ _ => rfl, fun _ h => by cases h⟩
  | (k, i, fresh) :: rs, s, F, hn, r, h => by
    simp only [recordPasses, Option.bind_eq_some_iff] at h
    obtain ⟨D, hD, h⟩ := h
    obtain ⟨r', hr', rfl⟩ := Option.map_eq_some_iff.1 h
    rw [List.map_cons, List.nodup_cons] at hn
    obtain ⟨hok, -⟩ := recordPass_ok (F.pass g k) hD
    have M1 := moved_put F hok
    obtain ⟨M2, hk, hu⟩ := recordPasses_moved rs _ M1.fresh hn.2 r' hr'
    refine ⟨M1.trans M2, fun k' hk' => ?_, fun o ho => ?_⟩
    · rw [List.map_cons, List.mem_cons, not_or] at hk'
      show r'.1.passes g k' = _
      rw [hk k' hk'.2, put_other (fun c => hk'.1 c.2)]
    · rcases List.mem_append.1 ho with ho | ho
      · obtain ⟨h1, h2, h3, h4, h5⟩ := hok.uses o ho
        have e : r'.1.passes o.graph o.pass = D.pass := by
          rw [h1, h2, hk k hn.1, put_same]
        exact ⟨h1, h3, by simp only [e]; exact h4, by simp only [e]; exact h5⟩
      · exact hu o ho

/-! ### The device -/

/-- The calls are allowed, and `K` holds after them. -/
def SafeThen (K : Dev → Prop) (d : Dev) : List Call → Prop
  | [] => K d
  | c :: cs => ∀ d', Finishing d d' → Ok d' c ∧ SafeThen K (d'.after c) cs

theorem safeThen_append {K : Dev → Prop} : ∀ (a b : List Call) (d : Dev),
    SafeThen (fun d => SafeThen K d b) d a → SafeThen K d (a ++ b)
  | [], _, _, h => h
  | _ :: a, b, _, h => fun d' hf => ⟨(h d' hf).1, safeThen_append a b _ (h d' hf).2⟩

theorem safeThen_mono {K K' : Dev → Prop} (hK : ∀ d, K d → K' d) : ∀ (a : List Call) (d : Dev), SafeThen K d a → SafeThen K' d a
  | [], _, h => hK _ h
  | _ :: a, _, h => fun d' hf => ⟨(h d' hf).1, safeThen_mono hK a _ (h d' hf).2⟩

theorem safe_append : ∀ (a b : List Call) (d : Dev), SafeThen (fun d => Safe d b) d a → Safe d (a ++ b)
  | [], _, _, h => h
  | _ :: a, b, _, h => fun d' hf => ⟨(h d' hf).1, safe_append a b _ (h d' hf).2⟩

theorem Finishing.refl (d : Dev) : Finishing d d := ⟨rfl, rfl, fun _ => Or.inl rfl⟩

theorem Finishing.some' {d d' : Dev} (h : Finishing d d') {g : Nat} {U : List Obj} (e : d'.pending g = some U) :
    d.pending g = some U := by
  rcases h.2.2 g with h | h
  · rw [← h]; exact e
  · rw [h] at e; cases e

theorem Finishing.none' {d d' : Dev} (h : Finishing d d') {g : Nat} (e : d.pending g = none) : d'.pending g = none := by
  rcases h.2.2 g with h | h
  · rw [h]; exact e
  · exact h

theorem Finishing.idle {d d' : Dev} (h : Finishing d d') {o : Obj} (i : d.Idle o) : d'.Idle o :=
  fun g U e => i g U (h.some' e)

/-- What is in flight belongs to graphs that are busy, and was made. -/
structure Flying (s : St) (busy : List Nat) (d : Dev) : Prop where
  busy : ∀ g U, d.pending g = some U → g ∈ busy
  uses : ∀ g U, d.pending g = some U → ∀ o ∈ U, o.graph = g ∧ o.handle < (s.passes o.graph o.pass).pipe.next

structure Inv (s : St) (busy late dead : List Nat) (d : Dev) : Prop where
  fresh : SFresh s
  once : ∀ o, o.handle ≠ 0 → sroom s o + d.gone.count o ≤ 1
  flying : Flying s busy d
  queue : ∀ o ∈ s.queue, o.graph ∈ late ∨ d.Idle o
  freed : ∀ p g, (p, g) ∈ d.freed → g ∈ dead

theorem Flying.finishing {s : St} {busy : List Nat} {d d' : Dev} (h : Flying s busy d) (f : Finishing d d') : Flying s busy d' :=
  ⟨fun g U e => h.busy g U (f.some' e), fun g U e => h.uses g U (f.some' e)⟩

theorem Inv.finishing {s : St} {busy late dead : List Nat} {d d' : Dev} (h : Inv s busy late dead d) (f : Finishing d d') :
    Inv s busy late dead d' :=
  ⟨h.fresh, fun o h0 => by rw [f.1]; exact h.once o h0, h.flying.finishing f, fun o ho => (h.queue o ho).imp_right f.idle,
    fun p g hm => h.freed p g (f.2.1 ▸ hm)⟩

/-- Calls that destroy idle objects not destroyed before, each once, and change idle sets. -/
theorem safe_calls {K : Dev → Prop} : ∀ (cs : List Call) (d : Dev),
    (∀ c ∈ cs, (∃ o, c = .destroy o ∧ d.Idle o) ∨ (∃ o, c = .update o ∧ d.Idle o)) →
    (∀ o ∈ dest cs, d.gone.count o + (dest cs).count o ≤ 1) →
    (∀ d', (∀ g, d'.pending g = d.pending g ∨ d'.pending g = none) →
      (∀ o, d'.gone.count o = d.gone.count o + (dest cs).count o) → d'.freed = d.freed → K d') →
    SafeThen K d cs
  | [], d, _, _, hK => hK d (fun _ => Or.inl rfl) (fun o => by simp [dest]) rfl
  | c :: cs, d, hc, hn, hK => by
    intro d' hf
    rcases hc c (by simp) with ⟨o, rfl, ho⟩ | ⟨o, rfl, ho⟩
    · have e : dest (.destroy o :: cs) = o :: dest cs := rfl
      rw [e] at hn hK
      have h1 := hn o (by simp)
      rw [List.count_cons_self] at h1
      refine ⟨⟨fun hm => ?_, hf.idle ho⟩, safe_calls cs _ (fun c' hc' => ?_) (fun o' ho' => ?_) (fun d2 h2 h3 h5 => ?_)⟩
      · rw [hf.1] at hm
        have := List.count_pos_iff.2 hm
        omega
      · rcases hc c' (List.mem_cons_of_mem _ hc') with ⟨x, e, hx⟩ | ⟨x, e, hx⟩
        · exact Or.inl ⟨x, e, hf.idle hx⟩
        · exact Or.inr ⟨x, e, hf.idle hx⟩
      · have h2 := hn o' (List.mem_cons_of_mem _ ho')
        show (o :: d'.gone).count o' + _ ≤ 1
        rw [List.count_cons] at h2 ⊢
        rw [hf.1]; omega
      · refine hK d2 (fun g => ?_) (fun o' => ?_) (h5.trans hf.2.1)
        · rcases h2 g with h2 | h2
          · rcases hf.2.2 g with h4 | h4
            · exact Or.inl (by rw [h2]; exact h4)
            · exact Or.inr (by rw [h2]; exact h4)
          · exact Or.inr h2
        · rw [h3 o']
          show (o :: d'.gone).count o' + _ = _
          rw [List.count_cons, List.count_cons, hf.1]; omega
    · have e : dest (.update o :: cs) = dest cs := rfl
      rw [e] at hn hK
      refine ⟨hf.idle ho, safe_calls cs _ (fun c' hc' => ?_) (fun o' ho' => ?_) (fun d2 h2 h3 h5 => ?_)⟩
      · rcases hc c' (List.mem_cons_of_mem _ hc') with ⟨x, e, hx⟩ | ⟨x, e, hx⟩
        · exact Or.inl ⟨x, e, hf.idle hx⟩
        · exact Or.inr ⟨x, e, hf.idle hx⟩
      · show d'.gone.count o' + _ ≤ 1
        rw [hf.1]; exact hn o' ho'
      · refine hK d2 (fun g => ?_) (fun o' => ?_) (h5.trans hf.2.1)
        · rcases h2 g with h2 | h2
          · rcases hf.2.2 g with h4 | h4
            · exact Or.inl (by rw [h2]; exact h4)
            · exact Or.inr (by rw [h2]; exact h4)
          · exact Or.inr h2
        · rw [h3 o']
          show d'.gone.count o' + _ = _
          rw [hf.1]

/-- The calls of passes of a graph that isn't in flight, or that destroy nothing, are allowed. -/
theorem moved_safe {g : Nat} {s s' : St} {cs : List Call} (M : Moved g s s' cs) {busy late late' dead : List Nat} {d : Dev}
    (I : Inv s busy late dead d) (hg : d.pending g = none ∨ dest cs = [])
    (hl : ∀ h ∈ late, h ∈ late') (hl' : d.pending g = none ∨ g ∈ late') :
    SafeThen (fun d' => Inv s' busy late' dead d' ∧ (d.pending g = none → d'.pending g = none) ∧ d'.freed = d.freed) d cs := by
  have idle : ∀ o : Obj, o.graph = g → d.pending g = none → d.Idle o := by
    intro o ho hp h U e hm
    have := (I.flying.uses h U e o hm).1
    rw [ho] at this
    subst this
    rw [hp] at e
    cases e
  have hcount : ∀ o ∈ dest cs, o.handle ≠ 0 := by
    intro o ho
    obtain ⟨c, hc, e⟩ := List.mem_filterMap.1 ho
    rcases M.calls c hc with ⟨x, rfl, -, h0⟩ | ⟨x, rfl, -⟩
    · simp only [Option.some.injEq] at e; rw [← e]; exact h0
    · simp at e
  refine safe_calls cs d (fun c hc => ?_) (fun o ho => ?_) (fun d' hp hcnt hfr => ?_)
  · rcases M.calls c hc with ⟨o, rfl, ho, h0⟩ | ⟨o, rfl, ho⟩
    · refine Or.inl ⟨o, rfl, idle o ho ?_⟩
      rcases hg with hg | hg
      · exact hg
      · have : o ∈ dest cs := List.mem_filterMap.2 ⟨_, hc, rfl⟩
        rw [hg] at this; cases this
    · refine Or.inr ⟨o, rfl, fun h U e hm => ?_⟩
      have := (I.flying.uses h U e o hm).2
      omega
  · have h1 := M.room o (hcount o ho)
    have h2 := I.once o (hcount o ho)
    omega
  · have hsome : ∀ h U, d'.pending h = some U → d.pending h = some U := by
      intro h U e
      rcases hp h with h1 | h1
      · rw [← h1]; exact e
      · rw [h1] at e; cases e
    refine ⟨⟨M.fresh, fun o h0 => ?_, ⟨fun h U e => I.flying.busy h U (hsome h U e), fun h U e o ho => ?_⟩, fun o ho => ?_,
      fun p x hm => I.freed p x (hfr ▸ hm)⟩, fun e => ?_, hfr⟩
    · have h1 := M.room o h0
      have h2 := I.once o h0
      rw [hcnt o]
      omega
    · obtain ⟨h1, h2⟩ := I.flying.uses h U (hsome h U e) o ho
      exact ⟨h1, Nat.lt_of_lt_of_le h2 (M.next _ _)⟩
    · obtain ⟨Q, hQ, nQ⟩ := M.queue
      rw [hQ] at ho
      have idle' : ∀ {x : Obj}, d.Idle x → d'.Idle x := fun i h U e => i h U (hsome h U e)
      rcases List.mem_append.1 ho with ho | ho
      · exact (I.queue o ho).imp (hl _) idle'
      · rcases hl' with hl' | hl'
        · exact Or.inr (idle' (idle o (nQ o ho) hl'))
        · exact Or.inl (by rw [nQ o ho]; exact hl')
    · rcases hp g with h1 | h1
      · rw [h1]; exact e
      · exact h1

/-! ### Programs -/

/-- Waiting for a graph. -/
theorem inv_wait {s : St} {busy late dead : List Nat} {d d' : Dev} (I : Inv s busy late dead d) (g : Nat) (f : Finishing d d') :
    Inv s (busy.filter (· ≠ g)) (late.filter (· ≠ g)) dead (d'.after (.waitForever g)) ∧
      (d'.after (.waitForever g)).pending g = none := by
  have J := I.finishing f
  have hs : ∀ h U, (d'.after (.waitForever g)).pending h = some U → h ≠ g ∧ d'.pending h = some U := by
    intro h U e
    simp only [Dev.after] at e
    by_cases c : h = g
    · rw [if_pos c] at e; cases e
    · rw [if_neg c] at e; exact ⟨c, e⟩
  refine ⟨⟨J.fresh, J.once, ⟨fun h U e => ?_, fun h U e => J.flying.uses h U (hs h U e).2⟩, fun o ho => ?_,
    J.freed⟩, by simp [Dev.after]⟩
  · exact List.mem_filter.2 ⟨J.flying.busy h U (hs h U e).2, by simpa using (hs h U e).1⟩
  · by_cases c : o.graph = g
    · right
      intro h U e hm
      have := (J.flying.uses h U (hs h U e).2 o hm).1
      exact (hs h U e).1 (by rw [← this, c])
    · rcases J.queue o ho with h | h
      · exact Or.inl (List.mem_filter.2 ⟨h, by simpa using c⟩)
      · exact Or.inr fun x U e => h x U (hs x U e).2

/-- `record`. -/
theorem record_safe {s : St} {busy late dead : List Nat} {d : Dev} (I : Inv s busy late dead d) {g : Nat} (ha : g ∉ dead) {rs : Recs}
    (hn : (rs.map (·.1)).Nodup) {r : St × List Call × List Obj} (h : record g rs s = some r) :
    SafeThen (fun d' => Inv r.1 (busy.filter (· ≠ g)) (late.filter (· ≠ g)) dead d' ∧ d'.pending g = none) d r.2.1 ∧
    ∀ o ∈ r.2.2, o.graph = g ∧ o.handle ≠ 0 ∧ o.handle < (r.1.passes o.graph o.pass).pipe.next
      ∧ 1 ≤ held (r.1.passes o.graph o.pass) o.handle := by
  obtain ⟨q, hq, rfl⟩ := Option.map_eq_some_iff.1 h
  obtain ⟨M, -, hu⟩ := recordPasses_moved rs s I.fresh hn q hq
  refine ⟨fun d' f => ⟨fun hm => ha (I.freed _ _ (f.2.1 ▸ hm)), fun d'' f' => ?_⟩, hu⟩
  obtain ⟨J, hp⟩ := inv_wait I g f
  have J' := J.finishing f'
  have hp' := f'.none' hp
  refine ⟨⟨hp', fun hm => ha (J'.freed _ _ hm)⟩, ?_⟩
  exact safeThen_mono (fun _ hk => ⟨hk.1, hk.2.1 hp'⟩) _ _ (moved_safe M J' (Or.inl hp') (fun _ h => h) (Or.inl hp'))

/-- Freeing what a graph that isn't in flight owns. -/
theorem free_safe {s : St} {busy late dead : List Nat} {g : Nat} : ∀ (ps : List Part) (d : Dev), Inv s busy late (g :: dead) d →
    d.pending g = none → ps.Nodup → (∀ p ∈ ps, (p, g) ∉ d.freed) →
    SafeThen (fun d' => Inv s busy late (g :: dead) d' ∧ d'.pending g = none ∧ ∀ p, (p, g) ∈ d'.freed → p ∈ ps ∨ (p, g) ∈ d.freed)
      d (ps.map (.free · g))
  | [], d, I, hp, _, _ => ⟨I, hp, fun _ h => Or.inr h⟩
  | p :: ps, d, I, hp, hn, hf => by
    intro d' f
    have I' := I.finishing f
    rw [List.nodup_cons] at hn
    refine ⟨⟨f.none' hp, fun hm => hf p (by simp) (f.2.1 ▸ hm)⟩, ?_⟩
    refine safeThen_mono (fun d2 h => ⟨h.1, h.2.1, fun q hq => ?_⟩) _ _ (free_safe ps (d'.after (.free p g))
      ⟨I'.fresh, I'.once, ⟨I'.flying.busy, I'.flying.uses⟩, I'.queue, fun q x hm => ?_⟩ (f.none' hp) hn.2 (fun q hq hm => ?_))
    · rcases List.mem_cons.1 hm with e | hm
      · rw [(Prod.mk.inj e).2]; exact List.mem_cons_self
      · exact I'.freed q x hm
    · rcases List.mem_cons.1 hm with e | hm
      · exact hn.1 ((Prod.mk.inj e).1 ▸ hq)
      · exact hf q (List.mem_cons_of_mem _ hq) (f.2.1 ▸ hm)
    · rcases h.2.2 q hq with h | h
      · exact Or.inl (List.mem_cons_of_mem _ h)
      · rcases List.mem_cons.1 h with e | h
        · rw [(Prod.mk.inj e).1]; exact Or.inl List.mem_cons_self
        · exact Or.inr (f.2.1 ▸ h)

/-- One user call. -/
theorem step_safe {s : St} {kind : Nat → Nat → Kind} {busy late dead : List Nat} {d : Dev} (I : Inv s busy late dead d)
    (hk : ∀ g k, (s.passes g k).kind = kind g k) {o : Op} {os : List Op} (hO : Once o) (hT : Tidy kind busy late (o :: os))
    (hA : Alive dead (o :: os)) {r : St × List Call} (h : step s o = some r) :
    (∀ g k, (r.1.passes g k).kind = kind g k) ∧
    ∃ busy' late' dead', Tidy kind busy' late' os ∧ Alive dead' os ∧ SafeThen (Inv r.1 busy' late' dead') d r.2 := by
  cases o with
  | wait g =>
    obtain rfl := Option.some.inj h
    exact ⟨hk, _, _, _, hT, hA.2, fun d' f => ⟨fun hm => hA.1 (I.freed _ _ (f.2.1 ▸ hm)), (inv_wait I g f).1⟩⟩
  | record g rs =>
    obtain ⟨q, hq, rfl⟩ := Option.map_eq_some_iff.1 h
    refine ⟨fun g' k => ?_, _, _, _, hT, hA.2, safeThen_mono (fun _ h => h.1) _ _ (record_safe I hA.1 hO hq).1⟩
    obtain ⟨q', hq', rfl⟩ := Option.map_eq_some_iff.1 hq
    rw [← hk]
    exact (recordPasses_moved rs s I.fresh hO q' hq').1.kind g' k
  | run g rs =>
    obtain ⟨q, hq, rfl⟩ := Option.map_eq_some_iff.1 h
    have hA1 : g ∉ dead := hA.1
    obtain ⟨S, hu⟩ := record_safe I hA1 hO hq
    refine ⟨fun g' k => ?_, g :: busy, [], dead, hT.2, hA.2, ?_⟩
    · obtain ⟨q', hq', rfl⟩ := Option.map_eq_some_iff.1 hq
      rw [← hk]
      exact (recordPasses_moved rs s I.fresh hO q' hq').1.kind g' k
    · simp only [List.append_assoc]
      refine safeThen_append _ _ _ (safeThen_mono (fun d1 h1 => ?_) _ _ S)
      obtain ⟨J, hp⟩ := h1
      intro d2 f2
      refine ⟨⟨f2.none' hp, fun hm => hA1 ((J.finishing f2).freed _ _ hm)⟩, ?_⟩
      have J2 := J.finishing f2
      have hp2 := f2.none' hp
      show SafeThen _ d2 _
      have hdest : dest (q.1.queue.map .destroy) = q.1.queue := by
        unfold dest
        generalize q.1.queue = l
        induction l with
        | nil => rfl
        | cons a l ih => simp only [List.map_cons, List.filterMap_cons]; rw [ih]
      -- nothing scheduled is in flight
      have idle : ∀ o ∈ q.1.queue, d2.Idle o := by
        intro o ho
        rcases J2.queue o ho with h | h
        · have h1 := List.mem_filter.1 h
          have h2 := hT.1 o.graph h1.1
          have h3 : o.graph ≠ g := by simpa using h1.2
          exact absurd h2 h3
        · exact h
      have count : ∀ o ∈ q.1.queue, d2.gone.count o + q.1.queue.count o ≤ 1 := by
        intro o ho
        obtain ⟨h0, h1⟩ := J2.fresh.queue o ho
        have h2 := J2.once o h0
        unfold sroom at h2
        rw [if_pos h1] at h2
        omega
      refine safeThen_append (q.1.queue.map .destroy) _ _ (safe_calls (q.1.queue.map .destroy) d2 (fun c hc => ?_) (fun o ho => ?_) (fun d3 h3 hc3 hfr => ?_))
      · obtain ⟨o, ho, rfl⟩ := List.mem_map.1 hc
        exact Or.inl ⟨o, rfl, idle o ho⟩
      · rw [hdest] at ho ⊢; exact count o ho
      · rw [hdest] at hc3
        intro d4 f4
        have hp4 : d4.pending g = none := by
          apply f4.none'
          rcases h3 g with h | h
          · rw [h]; exact hp2
          · exact h
        have hsome : ∀ h U, d4.pending h = some U → d2.pending h = some U := by
          intro h U e
          have e' := f4.some' e
          rcases h3 h with h1 | h1
          · rw [← h1]; exact e'
          · rw [h1] at e'; cases e'
        have once : ∀ o, o.handle ≠ 0 → sroom { q.1 with queue := [] } o + d4.gone.count o ≤ 1 := by
          intro o h0
          have h1 := J2.once o h0
          rw [f4.1, hc3 o]
          have h2 : ¬ o.handle < (q.1.passes o.graph o.pass).pipe.next → q.1.queue.count o = 0 := by
            intro c
            rw [List.count_eq_zero]
            exact fun hm => c (J2.fresh.queue o hm).2
          unfold sroom at h1 ⊢
          simp only [List.count_nil] at *
          by_cases c : o.handle < (q.1.passes o.graph o.pass).pipe.next
          · rw [if_pos c] at h1 ⊢; omega
          · have := h2 c
            rw [if_neg c] at h1 ⊢; omega
        have J4 : ∀ p x, (p, x) ∈ d4.freed → x ∈ dead := fun p x hm => J2.freed p x (hfr ▸ f4.2.1 ▸ hm)
        refine ⟨⟨hp4, fun o ho hm => ?_, fun hm => hA1 (J4 _ _ hm), fun hm => hA1 (J4 _ _ hm)⟩, ⟨⟨J2.fresh.pass, fun _ h => by cases h⟩, once, ⟨fun h U e => ?_, fun h U e o ho => ?_⟩,
          fun _ h => (by cases h), J4⟩⟩
        · obtain ⟨-, h0, h1, h2⟩ := hu o ho
          have h3 := once o h0
          have h4 := List.count_pos_iff.2 hm
          unfold sroom at h3
          simp only at h3
          rw [if_pos h1] at h3
          omega
        · simp only [Dev.after] at e
          by_cases c : h = g
          · rw [c]; exact List.mem_cons_self
          · rw [if_neg c] at e
            exact List.mem_cons_of_mem _ (List.mem_filter.1 (J2.flying.busy h U (hsome h U e))).1
        · simp only [Dev.after] at e
          by_cases c : h = g
          · rw [if_pos c] at e
            obtain rfl := Option.some.inj e
            obtain ⟨h1, -, h2, -⟩ := hu o ho
            exact ⟨by rw [h1, c], h2⟩
          · rw [if_neg c] at e
            exact J2.flying.uses h U (hsome h U e) o ho
  | reset g k program index again =>
    simp only [step, reset, Option.bind_eq_some_iff] at h
    obtain ⟨D, hD, h⟩ := h
    obtain ⟨hok, hd, -⟩ := resetPass_ok (I.fresh.pass g k) hD
    have M1 := moved_put I.fresh hok
    -- what the change and the re-recording do
    have key : ∃ cs, Moved g s r.1 cs ∧ r.2 = cs ∧ (g ∈ busy → dest cs = []) := by
      cases again with
      | none =>
        obtain rfl := Option.some.inj h
        exact ⟨_, M1, rfl, fun _ => hd⟩
      | some a =>
        obtain ⟨i, fresh⟩ := a
        obtain ⟨E, hE, rfl⟩ := Option.map_eq_some_iff.1 h
        obtain ⟨hok2, hd2⟩ := recordPass_ok (M1.fresh.pass g k) hE
        have M2 := moved_put M1.fresh hok2
        refine ⟨_, M1.trans M2, rfl, fun hb => ?_⟩
        rw [dest_append, hd, List.nil_append]
        apply hd2
        cases fresh with
        | false => exact Or.inl rfl
        | true =>
          right
          rw [put_same, hok.kind, hk]
          exact hT.1 hb i rfl
    obtain ⟨cs, M, rfl, hz⟩ := key
    refine ⟨fun g' k' => by rw [M.kind, hk], busy, _, dead, hT.2, hA.2, ?_⟩
    have hgp : g ∉ busy → d.pending g = none := by
      intro hb
      cases e : d.pending g with
      | none => rfl
      | some U => exact absurd (I.flying.busy g U e) hb
    by_cases hb : g ∈ busy
    · rw [if_pos hb]
      exact safeThen_mono (fun _ h => h.1) _ _
        (moved_safe M I (Or.inr (hz hb)) (fun _ h => List.mem_cons_of_mem _ h) (Or.inr List.mem_cons_self))
    · rw [if_neg hb]
      exact safeThen_mono (fun _ h => h.1) _ _ (moved_safe M I (Or.inl (hgp hb)) (fun _ h => h) (Or.inl (hgp hb)))
  | destroy g ks =>
    obtain rfl := Option.some.inj h
    have M := destroyPasses_moved (g := g) ks s I.fresh
    have hgp : d.pending g = none := by
      cases e : d.pending g with
      | none => rfl
      | some U => exact absurd (I.flying.busy g U e) hT.1
    refine ⟨fun g' k' => by rw [show (destroy g ks s).1 = (destroyPasses g ks s).1 from rfl, M.kind, hk], busy, late, g :: dead,
      hT.2, hA.2, ?_⟩
    simp only [destroy]
    rw [List.append_assoc]
    have I0 : Inv s busy late (g :: dead) d :=
      ⟨I.fresh, I.once, I.flying, I.queue, fun p x hm => List.mem_cons_of_mem _ (I.freed p x hm)⟩
    have hnone : ∀ p, (p, g) ∉ d.freed := fun p hm => hA.1 (I.freed p g hm)
    refine safeThen_append [.free .semaphore g, .free .commandBuffer g, .free .fence g] _ _
      (safeThen_mono (fun d1 h1 => ?_) _ _ (free_safe [.semaphore, .commandBuffer, .fence] d I0 hgp (by decide) (fun p _ => hnone p)))
    obtain ⟨I1, hp1, hf1⟩ := h1
    refine safeThen_append _ _ _ (safeThen_mono (fun d2 h2 => ?_) _ _
      (moved_safe M I1 (Or.inl hp1) (fun _ h => h) (Or.inl hp1)))
    obtain ⟨I2, hp2, hf2⟩ := h2
    refine safeThen_mono (fun d3 h3 => h3.1) _ _ (free_safe [.commandPool, .queryPool] d2 I2 (hp2 hp1) (by decide) (fun p hp hm => ?_))
    rw [hf2] at hm
    rcases hf1 p hm with h | h
    · revert hp h; cases p <;> decide
    · exact hnone p h

theorem exec_safe {kind : Nat → Nat → Kind} : ∀ (os : List Op) {s : St} {busy late dead : List Nat} {d : Dev},
    Inv s busy late dead d → (∀ g k, (s.passes g k).kind = kind g k) → (∀ o ∈ os, Once o) → Tidy kind busy late os →
    Alive dead os → ∀ r, exec s os = some r → Safe d r.2
  | [], _, _, _, _, _, _, _, _, _, _, r, h => by
    obtain rfl := Option.some.inj h
    trivial
  | o :: os, s, busy, late, dead, d, I, hk, hO, hT, hA, r, h => by
    simp only [exec, Option.bind_eq_some_iff] at h
    obtain ⟨q, hq, h⟩ := h
    obtain ⟨r', hr', rfl⟩ := Option.map_eq_some_iff.1 h
    obtain ⟨hk', busy', late', dead', hT', hA', S⟩ := step_safe I hk (hO o (by simp)) hT hA hq
    exact safe_append _ _ _ (safeThen_mono (fun d' I' =>
      exec_safe os I' hk' (fun o ho => hO o (List.mem_cons_of_mem _ ho)) hT' hA' r' hr') _ _ S)

theorem new_inv {s : St} (h : New s) : Inv s [] [] [] Dev.init := by
  have hz : ∀ (n x : Nat), x ≠ 0 → (List.replicate n 0).count x = 0 := by
    intro n x hx
    rw [List.count_eq_zero]
    intro hm
    exact hx (List.eq_of_mem_replicate hm)
  have hh : ∀ g k, (s.passes g k).pipe.next = 1 ∧ (s.passes g k).pipe.queue = [] ∧ ∀ x, x ≠ 0 →
      (cur (s.passes g k).pipe).count x = 0 ∧ (s.passes g k).targets.count x = 0 := by
    intro g k
    obtain ⟨kind, images, buffers, programs, creator, n, e⟩ := h.2 g k
    rw [e]
    refine ⟨rfl, rfl, fun x hx => ⟨?_, hz n x hx⟩⟩
    have h0 : ¬ (0 = x) := fun e => hx e.symm
    simp only [PassSt.new, cur, Pipe.St.new, List.count_cons, List.count_append, beq_iff_eq, if_neg h0]
    rw [hz n x hx, hz _ x hx]
  refine ⟨⟨fun g k => ⟨⟨by rw [(hh g k).1]; decide, fun x hx => ?_⟩, (hh g k).2.1, fun x hx => ?_⟩, fun o ho => ?_⟩, fun o h0 => ?_,
    ⟨fun g U e => (by cases e), fun g U e => (by cases e)⟩, fun o ho => ?_, fun _ _ h => by cases h⟩
  · have := (hh g k).1
    exact ⟨((hh g k).2.2 x (by omega)).1, by rw [(hh g k).2.1]; rfl⟩
  · have := (hh g k).1
    exact ((hh g k).2.2 x (by omega)).2
  · rw [h.1] at ho; cases ho
  · have h1 := (hh o.graph o.pass).2.2 o.handle h0
    unfold sroom held
    rw [h.1, h1.1, h1.2]
    simp only [Dev.init, List.count_nil]
    split <;> omega
  · rw [h.1] at ho; cases ho

/-- C101. Whatever the user does with graphs of compute, quad and mesh passes — recording, running, waiting, changing programs, destroying graphs — and
whenever the device finishes what was submitted: no pipeline, layout, descriptor pool or set, render pass or framebuffer is
destroyed while a submission in flight uses it, nor twice, nor before a submission that uses it; and no descriptor set in use is
changed; nothing else a graph owns is freed while its submission is in flight, or used afterwards. The user only changes the program of a pass of a graph in flight when that doesn't make the pass build its render pass
again, and then runs no other graph before having waited for that one; and destroys a graph only when it isn't in flight. -/
theorem objects_outlive_submissions_partial {kind : Nat → Nat → Kind} {s : St} (hN : New s)
    (hk : ∀ g k, (s.passes g k).kind = kind g k) (ops : List Op) (hO : ∀ o ∈ ops, Once o) (hT : Tidy kind [] [] ops)
    (hA : Alive [] ops) (r : St × List Call) (h : exec s ops = some r) : Safe Dev.init r.2 :=
  exec_safe ops (new_inv hN) hk hO hT hA r h

theorem plain_tidy (kind : Nat → Nat → Kind) : ∀ (ops : List Op) (busy : List Nat), (∀ o ∈ ops, Plain o) → Tidy kind busy [] ops
  | [], _, _ => trivial
  | o :: os, busy, h => by
    have hr := fun b => plain_tidy kind os b fun o ho => h o (List.mem_cons_of_mem _ ho)
    cases o with
    | wait g => exact hr _
    | record g rs => exact hr _
    | run g rs => exact ⟨fun h hh => (by cases hh), hr _⟩
    | reset g k p i a => exact (h (.reset g k p i a) List.mem_cons_self).elim
    | destroy g ks => exact (h (.destroy g ks) List.mem_cons_self).elim

theorem plain_alive : ∀ (ops : List Op), (∀ o ∈ ops, Plain o) → Alive [] ops
  | [], _ => trivial
  | o :: os, h => by
    have hr := plain_alive os fun o ho => h o (List.mem_cons_of_mem _ ho)
    cases o with
    | wait g => exact ⟨by simp, hr⟩
    | record g rs => exact ⟨by simp, hr⟩
    | run g rs => exact ⟨by simp, hr⟩
    | reset g k p i a => exact (h (.reset g k p i a) List.mem_cons_self).elim
    | destroy g ks => exact (h (.destroy g ks) List.mem_cons_self).elim

/-- C101, when no program is changed and no graph destroyed: for every number of graphs in flight, however passes rebuild their objects. -/
theorem objects_outlive_submissions {s : St} (hN : New s) (ops : List Op) (hO : ∀ o ∈ ops, Once o) (hP : ∀ o ∈ ops, Plain o)
    (r : St × List Call) (h : exec s ops = some r) : Safe Dev.init r.2 :=
  objects_outlive_submissions_partial hN (fun _ _ => rfl) ops hO (plain_tidy _ ops [] hP) (plain_alive ops hP) r h

/-! ### Examples -/

/-- Graphs of passes of one kind with two indices and two programs, a sampled, a stored and a drawn image and two buffers. -/
def exNew (kind : Kind) : St :=
  ⟨fun _ _ => PassSt.new kind (Pipe.exImages.map (·.attach 5)) (Pipe.exBuffers.map (·.attach 5)) [5, 6] none 2, []⟩

theorem exNew_new (kind : Kind) : New (exNew kind) := ⟨rfl, fun _ _ => ⟨_, _, _, _, _, _, rfl⟩⟩

/-- Two graphs in flight together; a program of the first one is changed meanwhile, its next run makes a render pass again for
another pass; then, once waited for, a program of the second, with a new render pass; then one of the first again, which is destroyed before its
deletion is executed, once waited for, while the second one is in flight. -/
def exProg : List Op :=
  [.run 0 [(0, 0, true), (1, 0, true)], .run 1 [(0, 0, true)], .reset 0 0 7 0 (some (0, false)),
    .run 0 [(0, 0, false), (1, 0, true)], .wait 1, .reset 1 0 7 0 (some (0, true)), .record 1 [(0, 1, true)],
    .run 0 [(0, 1, true)], .run 1 [(0, 0, false), (1, 0, true)], .wait 0, .reset 0 0 8 0 (some (0, false)), .destroy 0 [0, 1],
    .run 1 [(0, 0, false)]]

/-- The hypotheses hold of this program, whatever the kind of the passes… -/
theorem exProg_tidy (kind : Kind) : (∀ o ∈ exProg, Once o) ∧ Tidy (fun _ _ => kind) [] [] exProg ∧ Alive [] exProg ∧
    (exec (exNew kind) exProg).isSome := by
  refine ⟨?_, ?_, ?_, ?_⟩
  · intro o ho
    simp only [exProg, List.mem_cons, List.not_mem_nil, or_false] at ho
    rcases ho with rfl | rfl | rfl | rfl | rfl | rfl | rfl | rfl | rfl | rfl | rfl | rfl | rfl <;> simp [Once]
  · simp [exProg, Tidy]
  · simp [exProg, Alive, Op.graph]
  · cases kind <;> decide +kernel

/-- …and it destroys pipelines and render passes. -/
theorem exProg_destroys : ∃ r, exec (exNew .quad) exProg = some r ∧
    [(⟨0, 0, 5⟩ : Obj), ⟨0, 1, 1⟩, ⟨0, 0, 9⟩, ⟨0, 0, 2⟩].all (fun o => r.2.contains (.destroy o)) = true := by
  refine ⟨_, rfl, ?_⟩
  decide +kernel

/-! ### Where it fails -/

/-- What safety says of one call: it is allowed even if the device finished nothing but what was waited for. -/
theorem safe_at : ∀ (a : List Call) (d : Dev) (c : Call) (b : List Call), Safe d (a ++ c :: b) → Ok (a.foldl Dev.after d) c
  | [], d, _, _, h => (h d ⟨rfl, rfl, fun _ => Or.inl rfl⟩).1
  | _ :: a, d, c, b, h => safe_at a _ c b (h d ⟨rfl, rfl, fun _ => Or.inl rfl⟩).2

/-- Destroying what is in flight isn't safe. -/
theorem not_safe {cs : List Call} {o : Obj} (g n : Nat) (U : List Obj) (hn : cs[n]? = some (.destroy o))
    (h : ((cs.take n).foldl Dev.after Dev.init).pending g = some U) (ho : o ∈ U) : ¬ Safe Dev.init cs := by
  obtain ⟨hl, hc⟩ := List.getElem?_eq_some_iff.1 hn
  have e : cs = cs.take n ++ .destroy o :: cs.drop (n + 1) := by
    rw [← hc, List.getElem_cons_drop, List.take_append_drop]
  intro hs
  rw [e] at hs
  exact (safe_at _ _ _ _ hs).2 g U h ho

/-- C101 fails when a program of a quad or mesh pass is changed in flight and re-recording the pass makes a render pass again: the
render pass in use is destroyed at once. -/
theorem reset_destroys_render_pass (kind : Kind) (hk : kind ≠ .compute) :
    ∃ r, exec (exNew kind) [.run 0 [(0, 0, true)], .reset 0 0 7 0 (some (0, true))] = some r ∧ ¬ Safe Dev.init r.2 := by
  cases kind with
  | compute => exact absurd rfl hk
  | quad =>
    refine ⟨_, rfl, ?_⟩
    exact not_safe (o := ⟨0, 0, 1⟩) 0 8 [⟨0, 0, 1⟩, ⟨0, 0, 5⟩, ⟨0, 0, 3⟩, ⟨0, 0, 6⟩, ⟨0, 0, 4⟩, ⟨0, 0, 2⟩]
      (by decide +kernel) (by decide +kernel) (by decide)
  | mesh =>
    refine ⟨_, rfl, ?_⟩
    exact not_safe (o := ⟨0, 0, 1⟩) 0 8 [⟨0, 0, 1⟩, ⟨0, 0, 5⟩, ⟨0, 0, 3⟩, ⟨0, 0, 6⟩, ⟨0, 0, 4⟩, ⟨0, 0, 2⟩]
      (by decide +kernel) (by decide +kernel) (by decide)

/-- C101 fails when, after a program of a graph in flight was changed, another graph is run first: it destroys the pipeline. -/
theorem other_graph_destroys_pipeline :
    ∃ r, exec (exNew .compute) [.run 0 [(0, 0, true)], .run 1 [(0, 0, true)], .reset 0 0 7 0 (some (0, false)),
        .run 1 [(0, 0, false)]] = some r ∧ ¬ Safe Dev.init r.2 := by
  refine ⟨_, rfl, ?_⟩
  exact not_safe (o := ⟨0, 0, 4⟩) 0 19 [⟨0, 0, 4⟩, ⟨0, 0, 2⟩, ⟨0, 0, 5⟩, ⟨0, 0, 3⟩, ⟨0, 0, 1⟩]
    (by decide +kernel) (by decide +kernel) (by decide)

/-- C101 fails when a graph in flight is destroyed: `~RunnableGraph` doesn't wait, so it destroys the fence, the command buffer and
the objects of the passes in use. -/
theorem destroy_in_flight (kind : Kind) :
    ∃ r, exec (exNew kind) [.run 0 [(0, 0, true)], .destroy 0 [0]] = some r ∧ ¬ Safe Dev.init r.2 := by
  cases kind with
  | compute => exact ⟨_, rfl, not_safe (o := ⟨0, 0, 4⟩) 0 12 [⟨0, 0, 4⟩, ⟨0, 0, 2⟩, ⟨0, 0, 5⟩, ⟨0, 0, 3⟩, ⟨0, 0, 1⟩]
      (by decide +kernel) (by decide +kernel) (by decide)⟩
  | quad => exact ⟨_, rfl, not_safe (o := ⟨0, 0, 1⟩) 0 11 [⟨0, 0, 1⟩, ⟨0, 0, 5⟩, ⟨0, 0, 3⟩, ⟨0, 0, 6⟩, ⟨0, 0, 4⟩, ⟨0, 0, 2⟩]
      (by decide +kernel) (by decide +kernel) (by decide)⟩
  | mesh => exact ⟨_, rfl, not_safe (o := ⟨0, 0, 1⟩) 0 11 [⟨0, 0, 1⟩, ⟨0, 0, 5⟩, ⟨0, 0, 3⟩, ⟨0, 0, 6⟩, ⟨0, 0, 4⟩, ⟨0, 0, 2⟩]
      (by decide +kernel) (by decide +kernel) (by decide)⟩

/-- So are those of the graph itself. -/
theorem destroy_in_flight_frees (kind : Kind) : ∃ r a b U, exec (exNew kind) [.run 0 [(0, 0, true)], .destroy 0 [0]] = some r
    ∧ r.2 = a ++ .free .fence 0 :: b ∧ (a.foldl Dev.after Dev.init).pending 0 = some U := by
  cases kind with
  | compute => exact ⟨_, _, _, _, rfl, (List.take_append_drop 10 _).symm, rfl⟩
  | quad => exact ⟨_, _, _, _, rfl, (List.take_append_drop 10 _).symm, rfl⟩
  | mesh => exact ⟨_, _, _, _, rfl, (List.take_append_drop 10 _).symm, rfl⟩

/-- When re-recording a pass makes a render pass again: a pass that made its render pass in a recording finds it suitable when it
is re-recorded with what that recording had tracked exactly when that recording tracked none of the targets the pass only writes.
So `resetPipeline` of a quad or mesh pass destroys a render pass in flight as soon as an earlier pass used a target it draws over. -/
theorem rerecording_keeps_iff {sepDS : Bool} {fmt : Nat → Nat} {V : View → Prop} {passes : List Run.RunPass}
    {G : Run.GraphSt} (hT : Run.TidyViews sepDS fmt V passes) {p : Run.RunPass} (hp : p ∈ passes) {index w h : Nat}
    {c c1 : Rec.Ctx} {o : RPass.PassObj} (e : RPass.initialise sepDS G w h p index none c = some (o, true, c1)) :
    RPass.initialise sepDS G w h p index (some o) c = some (o, false, c)
    ↔ ∀ a ∈ p.images, RPass.isTarget a = true → a.isInput = false → ∀ v, a.img.view index = some v → ¬ RPass.Tracks c v :=
  RPass.unchanged_kept_iff hT hp e G c (fun _ _ _ _ _ _ _ _ => rfl) rfl rfl

end Verif.Flight
