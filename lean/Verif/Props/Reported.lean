import Verif.Spec.Reported
import Verif.Props.GraphBuild
import Verif.Props.Attachment
/-
C51: the attachments that appear in the reported transitions.
-/
namespace Verif.Deps
open Verif.Att

variable {D : Type} {K : Kind D} {H : Heap} {Ao Ai A : Attachment → Prop} {grp : D → Nat} {P : Trans D → Prop}
  {R : Trans D → Trans D → Prop} {I : Cache → Prop}

theorem attachEq_refl (a : Attachment) : attachEq a a = true := by
  unfold attachEq imgEq bufEq
  simp

theorem attachEq_trans {a b c : Attachment} (h1 : attachEq a b = true) (h2 : attachEq b c = true) : attachEq a c = true := by
  unfold attachEq imgEq bufEq at *
  simp only [Bool.and_eq_true, beq_iff_eq] at *
  simp only [h1, h2, and_self]

theorem Reported.mono {ts ts' : List (Trans D)} {a : Attachment} (h : Reported ts a) (hs : ∀ x ∈ ts, x ∈ ts') : Reported ts' a := by
  obtain ⟨t, ht, e⟩ := h
  exact ⟨t, hs t ht, e⟩

theorem Reported.congr {ts : List (Trans D)} {a b : Attachment} (h : Reported ts b) (e : attachEq b a = true) : Reported ts a := by
  obtain ⟨t, ht, g⟩ := h
  exact ⟨t, ht, g.imp (fun g => attachEq_trans g e) fun g => attachEq_trans g e⟩

/-- The transition is in the list, or an equal one. -/
def Has (K : Kind D) (ts : List (Trans D)) (t : Trans D) : Prop := ∃ x ∈ ts, x = t ∨ K.transEq x t = true

theorem transEq_attach {x y : Trans D} (h : K.transEq x y = true) :
    attachEq x.output y.output = true ∧ attachEq x.input y.input = true := by
  unfold Kind.transEq at h
  simp only [Bool.and_eq_true] at h
  exact ⟨h.1.2, h.2⟩

theorem Has.reported {ts : List (Trans D)} {t : Trans D} {a : Attachment} (h : Has K ts t)
    (ha : attachEq t.output a = true ∨ attachEq t.input a = true) : Reported ts a := by
  obtain ⟨x, hx, rfl | e⟩ := h
  · exact ⟨x, hx, ha⟩
  · exact ⟨x, hx, ha.imp (fun g => attachEq_trans (transEq_attach e).1 g) fun g => attachEq_trans (transEq_attach e).2 g⟩

theorem Has.mono {ts ts' : List (Trans D)} {t : Trans D} (h : Has K ts t) (hs : ∀ x ∈ ts, x ∈ ts') : Has K ts' t := by
  obtain ⟨x, hx, e⟩ := h
  exact ⟨x, hs x hx, e⟩

/-- The attachment is connected to the outside, on the given side. -/
def Side (inp : Bool) (ts : List (Trans D)) (a : Attachment) : Prop := if inp then FromOutside ts a else ToOutside ts a

theorem Side.mono {inp : Bool} {ts ts' : List (Trans D)} {a : Attachment} (h : Side inp ts a) (hs : ∀ x ∈ ts, x ∈ ts') :
    Side inp ts' a := by
  cases inp <;> (obtain ⟨t, ht, e⟩ := h; exact ⟨t, hs t ht, e⟩)

theorem Side.congr {inp : Bool} {ts : List (Trans D)} {a b : Attachment} (h : Side inp ts b) (e : attachEq b a = true) :
    Side inp ts a := by
  cases inp
  · obtain ⟨t, ht, g, g'⟩ := h; exact ⟨t, ht, attachEq_trans g e, g'⟩
  · obtain ⟨t, ht, g', g⟩ := h; exact ⟨t, ht, g', attachEq_trans g e⟩

theorem Side.reported {inp : Bool} {ts : List (Trans D)} {a : Attachment} (h : Side inp ts a) : Reported ts a := by
  cases inp
  · obtain ⟨t, ht, g, _⟩ := h; exact ⟨t, ht, .inl g⟩
  · obtain ⟨t, ht, _, g⟩ := h; exact ⟨t, ht, .inr g⟩

/-- The transition connects the attachment to the outside, on the given side. -/
def SideOf (inp : Bool) (t : Trans D) (a : Attachment) : Prop :=
  if inp then t.output.pass = 0 ∧ attachEq t.input a = true else attachEq t.output a = true ∧ t.input.pass = 0

theorem SideOf.congr {inp : Bool} {x t : Trans D} {a : Attachment} (h : SideOf inp t a) (e : K.transEq x t = true) :
    SideOf inp x a := by
  obtain ⟨e1, e2⟩ := transEq_attach e
  cases inp
  · exact ⟨attachEq_trans e1 h.1, (attachEq_pass e2).trans h.2⟩
  · exact ⟨(attachEq_pass e1).trans h.1, attachEq_trans e2 h.2⟩

theorem Has.side {inp : Bool} {ts : List (Trans D)} {t : Trans D} {a : Attachment} (h : Has K ts t) (ha : SideOf inp t a) :
    Side inp ts a := by
  obtain ⟨x, hx, rfl | e⟩ := h
  · cases inp <;> exact ⟨x, hx, ha⟩
  · have := ha.congr e
    cases inp <;> exact ⟨x, hx, this⟩

/-! ### The transitions of a pass that reads nothing from another pass -/

/-- A transition from or to the outside. -/
def Outer (t : Trans D) : Prop := t.input.pass = 0 ∨ t.output.pass = 0

theorem carries_outer {t : Trans D} (h : Outer t) (c : Cache) : K.carries H t c = (false, c) := by
  unfold Kind.carries
  rw [if_neg]
  rintro ⟨h1, h2⟩
  exact h.elim h1 h2

theorem insertBefore_outer (t : Trans D) : ∀ (ts : List (Trans D)) (c : Cache), (∀ x ∈ ts, Outer x) →
    K.insertBefore H t ts c = (none, c)
  | [], _, _ => rfl
  | x :: xs, c, h => by
    unfold Kind.insertBefore
    simp [carries_outer (K := K) (H := H) (h x (by simp)) c, insertBefore_outer t xs c (fun y hy => h y (by simp [hy]))]

theorem insertAfter_outer {t : Trans D} (ht : Outer t) : ∀ (ts : List (Trans D)) (c : Cache),
    K.insertAfter H t ts c = (none, c)
  | [], _ => rfl
  | x :: xs, c => by
    unfold Kind.insertAfter
    simp [carries_outer (K := K) (H := H) ht c, insertAfter_outer ht xs c]

theorem insertTransition_outer {t : Trans D} (ht : Outer t) {ts : List (Trans D)} (h : ∀ x ∈ ts, Outer x) (c : Cache) :
    ((K.insertTransition H t ts c).1 = ts ∧ ∃ x ∈ ts, K.transEq x t = true)
    ∨ (K.insertTransition H t ts c).1 = ts ++ [t] := by
  unfold Kind.insertTransition
  split
  · rename_i ha
    exact .inl ⟨rfl, List.any_eq_true.1 ha⟩
  · right
    simp [insertBefore_outer (K := K) (H := H) t ts c h, insertAfter_outer (K := K) (H := H) ht]

/-- The transitions recorded for the pass are outer ones, and all reported. -/
def Quiet (K : Kind D) (p : Nat) (b : Built D) : Prop :=
  ∀ e ∈ b.ins, e.1 = p → ∀ t ∈ e.2, Outer t ∧ Has K b.all t

theorem updatePass_other {S : Type} {p q : Nat} (hpq : q ≠ p) (f : List (Trans D) → S → List (Trans D) × S) :
    ∀ (xs : PassTrans D) (s : S), ∀ e ∈ (updatePass q f xs s).1, e.1 = p → e ∈ xs
  | [], s, e, he, hp => by
    simp only [updatePass, List.mem_singleton] at he
    subst he
    exact absurd hp hpq
  | (r, ts) :: xs, s, e, he, hp => by
    unfold updatePass at he
    split at he
    · rename_i hr
      rcases List.mem_cons.1 he with rfl | he
      · exact absurd (hr.symm.trans hp) hpq
      · exact List.mem_cons_of_mem _ he
    · rcases List.mem_cons.1 he with rfl | he
      · exact List.mem_cons_self
      · exact List.mem_cons_of_mem _ (updatePass_other hpq f xs s e he hp)

/-- The entries of the pass after an update: those there were, or the one updated. -/
theorem updatePass_own {S : Type} (p : Nat) (f : List (Trans D) → S → List (Trans D) × S) :
    ∀ (xs : PassTrans D) (s : S), ∃ ts, (ts = [] ∨ (p, ts) ∈ xs) ∧ (updatePass p f xs s).2 = (f ts s).2
      ∧ ∀ e ∈ (updatePass p f xs s).1, e ∈ xs ∨ e = (p, (f ts s).1)
  | [], s => ⟨[], .inl rfl, rfl, fun e he => .inr (by simpa [updatePass] using he)⟩
  | (r, ts) :: xs, s => by
    unfold updatePass
    split
    · rename_i hr
      subst hr
      refine ⟨ts, .inr (by simp), rfl, fun e he => ?_⟩
      rcases List.mem_cons.1 he with rfl | he
      · exact .inr rfl
      · exact .inl (by simp [he])
    · obtain ⟨ts', h1, h2, h3⟩ := updatePass_own p f xs s
      refine ⟨ts', h1.imp id (fun h => by simp [h]), h2, fun e he => ?_⟩
      rcases List.mem_cons.1 he with rfl | he
      · exact .inl (by simp)
      · exact (h3 e he).imp (fun h => by simp [h]) id

theorem quiet_pair {p : Nat} {o i : Attachment} {b : Built D}
    (hno : i.pass = p → (K.dependsOn H i.pass o.pass (K.getOutput i o) b.cache).1 = false) (hb : Quiet K p b) :
    Quiet K p (K.buildPair H o i b) := by
  unfold Kind.buildPair
  simp only
  split
  · rename_i hyes
    have hip : i.pass ≠ p := fun e => by rw [hno e] at hyes; simp at hyes
    intro e he hep t ht
    have he' : e ∈ b.ins := by
      unfold Kind.addDependency at he
      exact updatePass_other hip _ _ _ e he hep
    obtain ⟨h1, h2⟩ := hb e he' hep t ht
    exact ⟨h1, h2.mono (fun x hx => addDependency_sub (K := K) (H := H) o i _ x hx)⟩
  · exact hb

theorem quiet_remaining {p : Nat} (hext : ∀ d, (K.external d).pass = 0) (a : Attachment) {b : Built D} (hb : Quiet K p b) :
    Quiet K p (K.addRemaining H a b) ∧ (a.pass = p → Side (K.remainingInput a) (K.addRemaining H a b).all a) := by
  unfold Kind.addRemaining
  simp only
  generalize ht : (if K.remainingInput a = true then _ else _ : Trans D) = t
  have hout : Outer t := by
    rw [← ht]
    split
    · exact .inr (hext _)
    · exact .inl (hext _)
  have hta : SideOf (K.remainingInput a) t a := by
    rw [← ht]
    cases K.remainingInput a
    · exact ⟨attachEq_refl a, hext _⟩
    · exact ⟨hext _, attachEq_refl a⟩
  by_cases hap : a.pass = p
  · subst hap
    obtain ⟨ts, h1, h2, h3⟩ := updatePass_own a.pass
      (fun ts s => ((K.insertTransition H t ts s.2).1, ((K.insertTransition H t ts s.2).1.getLast?,
        (K.insertTransition H t ts s.2).2))) b.ins ((none, b.cache) : Option (Trans D) × Cache)
    have hts : ∀ x ∈ ts, Outer x ∧ Has K b.all x := by
      rcases h1 with rfl | h1
      · simp
      · exact hb _ h1 rfl
    have hins := insertTransition_outer (K := K) (H := H) hout (fun x hx => (hts x hx).1) b.cache
    rw [h2]
    simp only
    rcases hins with ⟨e1, x, hx, hxt⟩ | e1
    · -- an equal one is there
      have hhas : Has K b.all x := (hts x hx).2
      have hrep : Side (K.remainingInput a) b.all a := hhas.side (hta.congr hxt)
      have hq : ∀ all, (∀ x ∈ b.all, x ∈ all) → ∀ e ∈ (updatePass a.pass
      (fun ts s => ((K.insertTransition H t ts s.2).1, ((K.insertTransition H t ts s.2).1.getLast?,
        (K.insertTransition H t ts s.2).2))) b.ins ((none, b.cache) : Option (Trans D) × Cache)).1, e.1 = a.pass →
          ∀ y ∈ e.2, Outer y ∧ Has K all y := by
        intro all hall e he hep y hy
        rcases h3 e he with he | rfl
        · obtain ⟨g1, g2⟩ := hb e he hep y hy
          exact ⟨g1, g2.mono hall⟩
        · simp only [e1] at hy
          exact ⟨(hts y hy).1, (hts y hy).2.mono hall⟩
      split
      · exact ⟨hq _ (fun _ h => h), fun _ => hrep⟩
      · exact ⟨hq _ (fun x hx => insertTransition_sub _ _ _ _ _ x hx),
          fun _ => hrep.mono (fun x hx => insertTransition_sub _ _ _ _ _ x hx)⟩
    · rw [e1]
      simp only [List.getLast?_append, List.getLast?_singleton, Option.some_or]
      have hnew : Has K (K.insertTransition H t b.all (K.insertTransition H t ts b.cache).2).1 t :=
        insertTransition_has K H t _ _
      refine ⟨?_, fun _ => hnew.side hta⟩
      intro e he hep y hy
      rcases h3 e he with he | rfl
      · obtain ⟨g1, g2⟩ := hb e he hep y hy
        exact ⟨g1, g2.mono (fun x hx => insertTransition_sub _ _ _ _ _ x hx)⟩
      · simp only [e1, List.mem_append, List.mem_singleton] at hy
        rcases hy with hy | rfl
        · exact ⟨(hts y hy).1, (hts y hy).2.mono (fun x hx => insertTransition_sub _ _ _ _ _ x hx)⟩
        · exact ⟨hout, hnew⟩
  · refine ⟨?_, fun e => absurd e hap⟩
    split
    · intro e he hep y hy
      exact hb e (updatePass_other hap _ _ _ e he hep) hep y hy
    · intro e he hep y hy
      obtain ⟨g1, g2⟩ := hb e (updatePass_other hap _ _ _ e he hep) hep y hy
      exact ⟨g1, g2.mono (fun x hx => insertTransition_sub _ _ _ _ _ x hx)⟩

/-! ### The attachments that remain -/

theorem held_processAttachs2 (sel : Attachment → Bool) (as : List Attachment)
    (s : List (Attaches D) × List (Attaches D)) (d : D) (b : Attachment) (hs : Held s.2 d b) :
    Held (K.processAttachs sel as s).2 d b := by
  refine foldl_inv (fun s : List (Attaches D) × List (Attaches D) => Held s.2 d b) _ _ (fun s a _ hs => ?_) _ hs
  split
  · unfold Kind.processAttach
    exact foldl_inv (fun s : List (Attaches D) × List (Attaches D) => Held s.2 d b) _ _
      (fun s x _ hs => held_insertAttach _ _ _ _ hs) _ hs
  · exact hs

theorem Ctx.held_made2 (h : Ctx K H Ao Ai A grp P R I) {S : Attachment → Prop} (hSA : ∀ a, S a → A a)
    (hsame : ∀ a b, A a → A b → K.same (K.get a) (K.get b) = true → K.get a = K.get b)
    (hne : ∀ a, A a → K.split a ≠ [])
    (sel : Attachment → Bool) (as : List Attachment) (has : ∀ a ∈ as, sel a = true → S a)
    (s : List (Attaches D) × List (Attaches D)) (hs : GoodPair K S A grp s) (a : Attachment) (ha : a ∈ as)
    (hsel : sel a = true) :
    ∃ b, (b = a ∨ attachEq b a = true) ∧ Held (K.processAttachs sel as s).2 (K.get a) b := by
  refine foldl_reach (GoodPair K S A grp)
    (fun s => ∃ b, (b = a ∨ attachEq b a = true) ∧ Held s.2 (K.get a) b) _ as a ha ?_ ?_ ?_ s hs
  · intro s x hx hs
    split
    · rename_i hx'; exact h.processAttach hSA x (has x hx hx') s hs
    · exact hs
  · rintro s x hx - ⟨b, hb1, hb2⟩
    refine ⟨b, hb1, ?_⟩
    have := held_processAttachs2 (K := K) sel [x] s _ _ hb2
    simpa [Kind.processAttachs] using this
  · intro s hs
    rw [if_pos hsel]
    have hSa := has a ha hsel
    obtain ⟨x, xs, e⟩ := List.exists_cons_of_ne_nil (hne a (hSA a hSa))
    unfold Kind.processAttach
    refine foldl_reach (GoodPair K S A grp)
      (fun s => ∃ b, (b = a ∨ attachEq b a = true) ∧ Held s.2 (K.get a) b) _ (K.split a) x (by rw [e]; simp)
      ?_ ?_ ?_ s hs
    · intro s y hy hs
      have := h.split a y hy
      subst this
      exact ⟨insertAttach_good (fun a b ha hb => h.same a b (hSA a ha) (hSA b hb)) y hSa _
        (addOverlapping_good h.overlap y hSa _ hs.1), insertAttach_good h.same y (hSA y hSa) _ hs.2⟩
    · rintro s y hy - ⟨b, hb1, hb2⟩
      exact ⟨b, hb1, held_insertAttach _ _ _ _ hb2⟩
    · intro s hs
      have := h.split a x (by rw [e]; simp)
      subst this
      exact held_self hsame x (hSA x hSa) _ hs.2

theorem Ctx.collect_all (h : Ctx K H Ao Ai A grp P R I) (nodes : List Nat) (hat : Attached K H nodes Ao Ai)
    (hsame : ∀ a b, A a → A b → K.same (K.get a) (K.get b) = true → K.get a = K.get b)
    (hne : ∀ a, A a → K.split a ≠ []) (n : Nat) (hn : n ∈ nodes) (a : Attachment) (ha : a ∈ K.attaches (H.pass n))
    (hsel : K.isInput a = true ∨ K.isOutput a = true) :
    ∃ b, (b = a ∨ attachEq b a = true) ∧ Held (K.collect H nodes).2.2 (K.get a) b := by
  refine foldl_reach (GoodThree K Ao Ai A grp)
    (fun s => ∃ b, (b = a ∨ attachEq b a = true) ∧ Held s.2.2 (K.get a) b) _ nodes n hn ?_ ?_ ?_ _
    ⟨by simp, by simp, by simp⟩
  · intro s m hm hs
    obtain ⟨h1, h2⟩ := h.collectStep nodes hat s hs m hm
    exact ⟨h1.1, h2.1, h2.2⟩
  · rintro s m hm - ⟨b, hb1, hb2⟩
    exact ⟨b, hb1, held_processAttachs2 _ _ _ _ _ (held_processAttachs2 _ _ (s.1, s.2.2) _ _ hb2)⟩
  · intro s hs
    obtain ⟨h1, -⟩ := h.collectStep nodes hat s hs n hn
    rcases hsel with hsel | hsel
    · obtain ⟨b, hb1, hb2⟩ := h.held_made2 h.inp hsame hne K.isInput _ (hat.inp n hn) (s.1, s.2.2) ⟨hs.1, hs.2.2⟩ a ha hsel
      exact ⟨b, hb1, held_processAttachs2 _ _ (s.2.1, _) _ _ hb2⟩
    · exact h.held_made2 h.out hsame hne K.isOutput _ (hat.out n hn)
        (s.2.1, (K.processAttachs K.isInput (K.attaches (H.pass n)) (s.1, s.2.2)).2) ⟨hs.2.1, h1.2⟩ a ha hsel

/-- An attachment of a pass that reads nothing from another pass, of data nobody passes on, is reported. -/
theorem Ctx.build_reported (h : Ctx K H Ao Ai A grp P R I) (nodes : List Nat) (hat : Attached K H nodes Ao Ai)
    (h0 : I Cache.empty) (hext : ∀ d, (K.external d).pass = 0)
    (hsame : ∀ a b, A a → A b → K.same (K.get a) (K.get b) = true → K.get a = K.get b)
    (hne : ∀ a, A a → K.split a ≠ []) (p : Nat) (hp : p ∈ nodes) (a : Attachment) (ha : a ∈ K.attaches (H.pass p))
    (hap : a.pass = p) (hsel : K.isInput a = true ∨ K.isOutput a = true)
    (hno : ∀ o i c, Ao o → Ai i → grp (K.get o) = grp (K.get i) → i.pass = p → I c →
      (K.dependsOn H i.pass o.pass (K.getOutput i o) c).1 = false)
    (hfree : ∀ o i, Ao o → Ai i → K.overlap (K.get i) (K.get o) = true → ¬ K.same (K.get a) (K.get i) = true)
    (hri : ∀ x y, attachEq x y = true → K.remainingInput x = K.remainingInput y) :
    Side (K.remainingInput a) (K.build H nodes).all a := by
  have hthree := h.collect nodes hat
  obtain ⟨a', ha', e, he, hed, hea⟩ := h.collect_all nodes hat hsame hne p hp a ha hsel
  have hpa' : a'.pass = p := by
    rcases ha' with rfl | g
    · exact hap
    · rw [attachEq_pass g]; exact hap
  unfold Kind.build Kind.buildAll
  simp only
  generalize hb0 : (⟨nodes.map fun n => (n, []), nodes.map fun n => (n, []), [], Cache.empty⟩ : Built D) = b0
  have hgood0 : GoodBuilt P R I b0 := by
    subst hb0
    refine ⟨⟨by simp, List.Pairwise.nil⟩, ?_, ?_, h0⟩
    · intro e he
      obtain ⟨n, -, rfl⟩ := List.mem_map.1 he
      exact ⟨by simp, List.Pairwise.nil⟩
    · intro e he
      obtain ⟨n, -, rfl⟩ := List.mem_map.1 he
      exact ⟨by simp, List.Pairwise.nil⟩
  have hquiet0 : Quiet K p b0 := by
    subst hb0
    intro e he _ t ht
    obtain ⟨n, -, rfl⟩ := List.mem_map.1 he
    simp at ht
  -- after the pairs
  have main : (fun r : Built D × List (Attaches D) => GoodBuilt P R I r.1 ∧ Quiet K p r.1 ∧ e ∈ r.2)
      ((K.collect H nodes).2.1.foldl (fun r o => (K.collect H nodes).1.foldl (fun r i => K.buildEntry H o i r) r)
        (b0, (K.collect H nodes).2.2)) := by
    refine foldl_inv (fun r : Built D × List (Attaches D) => GoodBuilt P R I r.1 ∧ Quiet K p r.1 ∧ e ∈ r.2)
      _ _ (fun r o ho hr => ?_) _ ⟨hgood0, hquiet0, he⟩
    refine foldl_inv (fun r : Built D × List (Attaches D) => GoodBuilt P R I r.1 ∧ Quiet K p r.1 ∧ e ∈ r.2)
      _ _ (fun r i hi hr => ?_) _ hr
    obtain ⟨hr1, hr2, hr3⟩ := hr
    have eo := hthree.2.1 o ho
    have ei := hthree.1 i hi
    refine ⟨h.buildEntry o i eo ei r hr1, ?_⟩
    unfold Kind.buildEntry
    split
    · rename_i hov
      have hg := h.overlap _ _ hov
      constructor
      · have : (fun b : Built D => GoodBuilt P R I b ∧ Quiet K p b)
            (o.attaches.foldl (fun b oa => i.attaches.foldl (fun b ia => K.buildPair H oa ia b) b) r.1) := by
          refine foldl_inv (fun b : Built D => GoodBuilt P R I b ∧ Quiet K p b) _ _ (fun b oa hoa hb => ?_) _ ⟨hr1, hr2⟩
          refine foldl_inv (fun b : Built D => GoodBuilt P R I b ∧ Quiet K p b) _ _ (fun b ia hia hb => ?_) _ hb
          obtain ⟨q1, q2⟩ := eo.attaches oa hoa
          obtain ⟨q3, q4⟩ := ei.attaches ia hia
          have hgg : grp (K.get oa) = grp (K.get ia) := by rw [q2, q4, hg]
          exact ⟨h.buildPair oa ia q1 q3 hgg b hb.1,
            quiet_pair (fun e => hno oa ia b.cache q1 q3 hgg e hb.1.cache) hb.2⟩
        exact this.2
      · obtain ⟨ao, hao, e1⟩ := eo.data
        obtain ⟨ai, hai, e2⟩ := ei.data
        rw [e1, e2] at hov
        refine (List.mem_eraseP_of_neg ?_).2 hr3
        rw [hed, e2]
        exact hfree ao ai hao hai hov
    · exact ⟨hr2, hr3⟩
  obtain ⟨m1, m2, m3⟩ := main
  -- the remaining ones
  have hrep := foldl_reach (Quiet K p) (fun b : Built D => Side (K.remainingInput a') b.all a') 
    (fun b x => x.attaches.foldl (fun b a => K.addRemaining H a b) b) _ e m3
    (fun b x _ hb => foldl_inv (Quiet K p) _ _ (fun b y _ hb => (quiet_remaining hext y hb).1) _ hb)
    (fun b x _ _ hr => foldl_inv (fun b : Built D => Side (K.remainingInput a') b.all a') _ _
      (fun b y _ hb => hb.mono (addRemaining_sub y b)) _ hr)
    (fun b hb => foldl_reach (Quiet K p) (fun b : Built D => Side (K.remainingInput a') b.all a') _ _ a' hea
      (fun b y _ hb => (quiet_remaining hext y hb).1)
      (fun b y _ _ hr => hr.mono (addRemaining_sub y b))
      (fun b hb => (quiet_remaining hext a' hb).2 hpa') b hb) _ m2
  rcases ha' with rfl | g
  · exact hrep
  · rw [← hri _ _ g]
    exact hrep.congr g

theorem attachEq_flags {x y : Attachment} (h : attachEq x y = true) : x.flags = y.flags ∧ x.img.flags = y.img.flags := by
  unfold attachEq imgEq at h
  simp only [Bool.and_eq_true, beq_iff_eq] at h
  exact ⟨h.1.1.2, h.1.2.1.1.1.1.1.1.1⟩

theorem remainingInput_congr (sources : View → List View) (x y : Attachment) (h : attachEq x y = true) :
    (viewKind sources).remainingInput x = (viewKind sources).remainingInput y := by
  obtain ⟨h1, h2⟩ := attachEq_flags h
  simp only [viewKind, Attachment.isInput, Attachment.isSampledView, Attachment.isTransitionView, Attachment.isStorageView,
    Attachment.isTransferView, Attachment.isImage, ImgAttach.isDepth, ImgAttach.isStencil, ImgAttach.isSampled,
    ImgAttach.isTransition, ImgAttach.isStorage, ImgAttach.isTransfer, h1, h2]

theorem outer_attachments_side (sources : View → List View) (H : Heap) (known : View → Prop)
    (h : WellFormed H known) (hcl : Closed H) (p : Nat) (hp : p ∈ H.univ) (a : Attachment) (ha : a ∈ (H.pass p).images)
    (hsel : a.isInput = true ∨ a.isOutput = true) (hreads : ReadsNoResult H p) (hfree : NotPassedOn H (viewOf a)) :
    Side ((viewKind sources).remainingInput a) ((viewKind sources).build H H.univ).all a := by
  have stepV := fun (a t : Nat) (v : View) (c : Cache) (ha : a ∈ H.univ) (ht : t ∈ H.univ) (hv : known v)
      (hc : LeadsCache H viewKey (· < 2 ^ 32) c) =>
    leadsCache_step H hcl viewKey (· < 2 ^ 32)
      (fun t ht t' ht' v v' hv hv' e => (view_keys_distinct _ _ _ _ (h.id32 t ht) (h.id32 t' ht') hv hv' e).1)
      ((viewKind sources).outputs v) ((viewKind sources).inputs v) a t v.id ha ht (h.view32 v hv) c hc
  have cv := view_ctx sources H known h (fun _ _ => False) (fun _ _ h => h) (fun _ _ _ _ h => h.elim)
    (LeadsCache H viewKey (· < 2 ^ 32)) (fun a t v c ha ht hv hc => (stepV a t v c ha ht hv hc).1)
  have hk : ∀ a, ImageOf H a → known (viewOf a) := fun a ha => (h.images _ ha.1 _ ha.2).2
  have hsame : ∀ x y, ImageOf H x → ImageOf H y →
      (viewKind sources).same ((viewKind sources).get x) ((viewKind sources).get y) = true →
      (viewKind sources).get x = (viewKind sources).get y := by
    intro x y hx hy hs
    have : (viewOf x).id = (viewOf y).id := by simpa [viewKind] using hs
    exact h.views _ _ (hk x hx) (hk y hy) this
  have hap := (h.images p hp a ha).1
  refine cv.build_reported H.univ (views_attached sources H known h) (fun _ _ _ _ _ hx => by simp [Cache.empty] at hx)
    (fun _ => rfl) hsame (fun x _ => split_view_ne sources x) p hp a ha hap hsel ?_ ?_ (remainingInput_congr sources)
  · intro o i c ho hi hg hip hc
    cases hx : ((viewKind sources).dependsOn H i.pass o.pass ((viewKind sources).getOutput i o) c).1 with
    | false => rfl
    | true =>
      exfalso
      have hv : known (getOutputView (viewOf i) (viewOf o)) := by
        rcases getOutputView_mem (viewOf i) (viewOf o) with e | e <;> rw [e]
        · exact hk i hi.1
        · exact hk o ho.1
      obtain ⟨d, hd, hdep, hid⟩ := (stepV i.pass o.pass _ c hi.1.1 ho.1.1 hv hc).2 hx
      have ed := h.ids d hd _ ho.1.1 hid
      subst ed
      rw [hip] at hdep
      exact hreads _ hd hdep o ho.1.2 ho.2 i (by rw [← hip]; exact hi.1.2) hi.2 hg
  · intro o i ho hi hov hs
    have hov' := cv.overlap _ _ hov
    have es : viewOf a = viewOf i := hsame a i ⟨by rw [hap]; exact hp, by rw [hap]; exact ha⟩ hi.1 hs
    refine hfree i.pass hi.1.1 i hi.1.2 hi.2 es.symm o.pass ho.1.1 o ho.1.2 ho.2 ?_
    rw [es]
    exact hov'.symm

/-- C51 (partial: a pass that reads no image written by a pass it depends on, a view that is not both read and written in the
graph). The attachment appears in the reported transitions. Merged views included. -/
theorem outer_attachments_reported_partial (sources : View → List View) (H : Heap) (known : View → Prop)
    (h : WellFormed H known) (hcl : Closed H) (p : Nat) (hp : p ∈ H.univ) (a : Attachment) (ha : a ∈ (H.pass p).images)
    (hsel : a.isInput = true ∨ a.isOutput = true) (hreads : ReadsNoResult H p) (hfree : NotPassedOn H (viewOf a)) :
    Reported ((viewKind sources).build H H.univ).all a :=
  (outer_attachments_side sources H known h hcl p hp a ha hsel hreads hfree).reported

theorem outer_buffers_side (H : Heap) (known : View → Prop)
    (h : WellFormed H known) (hcl : Closed H) (p : Nat) (hp : p ∈ H.univ) (a : Attachment) (ha : a ∈ (H.pass p).buffers)
    (hsel : (a.isInput = true ∧ (a.isStorageBuffer = true ∨ a.isBuffer = true ∧ a.buf.isUniform = true ∨ a.isTransitionBuffer = true))
      ∨ (a.isOutput = true ∧ a.isStorageBuffer = true))
    (hreads : ReadsNoBufferResult H p) (hfree : BufferNotPassedOn H a.buf.buffers) :
    Side a.isInput (bufferKind.build H H.univ).all a := by
  have stepB := fun (a t : Nat) (b : List Nat) (c : Cache) (ha : a ∈ H.univ) (ht : t ∈ H.univ)
      (hc : LeadsCache H bufferKey (fun _ => True) c) =>
    leadsCache_step H hcl bufferKey (fun _ => True)
      (fun t ht t' ht' v v' _ _ e => buffer_key_pass _ _ _ _ (h.id32 t ht) (h.id32 t' ht') e)
      (bufferKind.outputs b) (bufferKind.inputs b) a t (firstBuffer b) ha ht trivial c hc
  have cb := buffer_ctx H (fun _ _ => False) (fun _ _ h => h) (fun _ _ h => h.elim)
    (LeadsCache H bufferKey (fun _ => True)) (fun a t b c ha ht _ hc => (stepB a t b c ha ht hc).1)
  have hap := h.buffers p hp a ha
  refine cb.build_reported H.univ (buffers_attached H known h) (fun _ _ _ _ _ hx => by simp [Cache.empty] at hx)
    (fun _ => rfl) (fun x y _ _ hs => by simpa [bufferKind] using hs) (fun x _ => by simp [bufferKind]) p hp a ha hap ?_ ?_ ?_
    (fun x y hxy => by simp only [bufferKind, Attachment.isInput, (attachEq_flags hxy).1])
  · rcases hsel with ⟨h1, h2⟩ | ⟨h1, h2⟩
    · left
      show (a.isInput && (a.isStorageBuffer || (a.isBuffer && a.buf.isUniform) || a.isTransitionBuffer)) = true
      rw [h1]
      rcases h2 with h2 | ⟨h2, h3⟩ | h2
      · simp [h2]
      · simp [h2, h3]
      · simp [h2]
    · right
      show (a.isOutput && a.isStorageBuffer) = true
      rw [h1, h2]; rfl
  · intro o i c ho hi hg hip hc
    cases hx : (bufferKind.dependsOn H i.pass o.pass (bufferKind.getOutput i o) c).1 with
    | false => rfl
    | true =>
      exfalso
      obtain ⟨d, hd, hdep, hid⟩ := (stepB i.pass o.pass _ c hi.1.1 ho.1.1 hc).2 hx
      have ed := h.ids d hd _ ho.1.1 hid
      subst ed
      rw [hip] at hdep
      exact hreads _ hd hdep o ho.1.2 ho.2 i (by rw [← hip]; exact hi.1.2) hi.2 hg
  · intro o i ho hi hov hs
    have es : a.buf.buffers = i.buf.buffers := by simpa [bufferKind] using hs
    have hov' : firstBuffer i.buf.buffers = firstBuffer o.buf.buffers := by simpa [bufferKind] using hov
    exact hfree i.pass hi.1.1 i hi.1.2 hi.2 es.symm o.pass ho.1.1 o ho.1.2 ho.2 (by rw [es]; exact hov'.symm)

/-- C51, buffers (partial, as for images; storage, uniform and transition inputs, storage outputs). -/
theorem outer_buffers_reported_partial (H : Heap) (known : View → Prop)
    (h : WellFormed H known) (hcl : Closed H) (p : Nat) (hp : p ∈ H.univ) (a : Attachment) (ha : a ∈ (H.pass p).buffers)
    (hsel : (a.isInput = true ∧ (a.isStorageBuffer = true ∨ a.isBuffer = true ∧ a.buf.isUniform = true ∨ a.isTransitionBuffer = true))
      ∨ (a.isOutput = true ∧ a.isStorageBuffer = true))
    (hreads : ReadsNoBufferResult H p) (hfree : BufferNotPassedOn H a.buf.buffers) :
    Reported (bufferKind.build H H.univ).all a :=
  (outer_buffers_side H known h hcl p hp a ha hsel hreads hfree).reported

/-! ### Direction of the transitions from and to the outside -/

/-- **C78**, buffers (partial, as C51): a buffer read is reported as coming from outside, another as going outside. -/
theorem outer_buffers_directed_partial (H : Heap) (known : View → Prop)
    (h : WellFormed H known) (hcl : Closed H) (p : Nat) (hp : p ∈ H.univ) (a : Attachment) (ha : a ∈ (H.pass p).buffers)
    (hreads : ReadsNoBufferResult H p) (hfree : BufferNotPassedOn H a.buf.buffers) :
    (a.isInput = true → a.isStorageBuffer = true ∨ a.isBuffer = true ∧ a.buf.isUniform = true ∨ a.isTransitionBuffer = true →
      FromOutside (bufferKind.build H H.univ).all a)
    ∧ (a.isInput = false → a.isOutput = true → a.isStorageBuffer = true → ToOutside (bufferKind.build H H.univ).all a) := by
  refine ⟨fun hi hk => ?_, fun hi ho hk => ?_⟩
  · have := outer_buffers_side H known h hcl p hp a ha (.inl ⟨hi, hk⟩) hreads hfree
    rw [hi] at this
    exact this
  · have := outer_buffers_side H known h hcl p hp a ha (.inr ⟨ho, hk⟩) hreads hfree
    rw [hi] at this
    exact this

/-- The methods whose attachments are reported as coming from outside. -/
def takenFromOutside : ImageAdder → Bool
  | .sampled | .inputColour | .inOutColour => true
  | _ => false

theorem adder_side (sources : View → List View) (m : ImageAdder) (hm : m.dir ≠ none) (p b : Nat) (vs : List View) :
    (viewKind sources).remainingInput (m.attach p b vs) = takenFromOutside m
    ∧ ((m.attach p b vs).isInput = true ∨ (m.attach p b vs).isOutput = true) := by
  obtain ⟨d, hd⟩ := Option.ne_none_iff_exists'.1 hm
  obtain ⟨h1, h2, h3, -⟩ := image_direction m d hd p b vs
  refine ⟨?_, ?_⟩
  · cases m
    case transferInOut f =>
      have ht : ((ImageAdder.transferInOut f).attach p b vs).isTransferView = true := by
        unfold Attachment.isTransferView
        rw [h1]
        attfull
      have hs : ((ImageAdder.transferInOut f).attach p b vs).isSampledView = false := by
        unfold Attachment.isSampledView
        rw [h1]
        attfull
      simp [viewKind, ht, hs, takenFromOutside]
    case implicitColour => exact absurd rfl hm
    case implicitDepth => exact absurd rfl hm
    case implicitDepthStencil => exact absurd rfl hm
    all_goals
      simp only [viewKind, Attachment.isSampledView, Attachment.isTransitionView, Attachment.isStorageView,
        Attachment.isTransferView, takenFromOutside, h1, h2]
      simp [ImageAdder.dir] at hd
      subst hd
      attfull
  · cases d <;> simp [h2, h3, Dir.reads, Dir.writes]

/-- **C78** (partial: passes and views as in C51; for sampled images and colour attachments): what is read is reported as
coming from outside. What is only written, whatever its kind, is reported as going outside. -/
theorem outer_images_directed_partial (sources : View → List View) (H : Heap) (known : View → Prop)
    (h : WellFormed H known) (hcl : Closed H) (p : Nat) (hp : p ∈ H.univ) (m : ImageAdder) (b : Nat) (vs : List View)
    (ha : m.attach p b vs ∈ (H.pass p).images)
    (hreads : ReadsNoResult H p) (hfree : NotPassedOn H (viewOf (m.attach p b vs))) :
    (m ∈ [.sampled, .inputColour, .inOutColour] → FromOutside ((viewKind sources).build H H.univ).all (m.attach p b vs))
    ∧ (m.dir = some .output → ToOutside ((viewKind sources).build H H.univ).all (m.attach p b vs)) := by
  refine ⟨fun hm => ?_, fun hm => ?_⟩
  · have hd : m.dir ≠ none := by
      simp only [List.mem_cons, List.not_mem_nil, or_false] at hm
      rcases hm with rfl | rfl | rfl <;> simp [ImageAdder.dir]
    obtain ⟨h1, h2⟩ := adder_side sources m hd p b vs
    have := outer_attachments_side sources H known h hcl p hp _ ha h2 hreads hfree
    rw [h1] at this
    simp only [List.mem_cons, List.not_mem_nil, or_false] at hm
    rcases hm with rfl | rfl | rfl <;> exact this
  · obtain ⟨h1, h2⟩ := adder_side sources m (by rw [hm]; simp) p b vs
    have := outer_attachments_side sources H known h hcl p hp _ ha h2 hreads hfree
    rw [h1] at this
    cases m <;> first | exact this | (simp [ImageAdder.dir] at hm)

/-- **Negation** of C78: a depth, stencil, storage or transfer image that is only read is reported as going outside. -/
theorem outer_input_reported_as_output (sources : View → List View) (H : Heap) (known : View → Prop)
    (h : WellFormed H known) (hcl : Closed H) (p : Nat) (hp : p ∈ H.univ) (m : ImageAdder) (b : Nat) (vs : List View)
    (ha : m.attach p b vs ∈ (H.pass p).images)
    (hreads : ReadsNoResult H p) (hfree : NotPassedOn H (viewOf (m.attach p b vs)))
    (hm : m ∈ [.inputStorage, .transferInput, .inputDepth, .inputDepthStencil, .inputStencil]) :
    m.dir = some .input ∧ ToOutside ((viewKind sources).build H H.univ).all (m.attach p b vs) := by
  have hd : m.dir = some .input := by
    simp only [List.mem_cons, List.not_mem_nil, or_false] at hm
    rcases hm with rfl | rfl | rfl | rfl | rfl <;> rfl
  obtain ⟨h1, h2⟩ := adder_side sources m (by rw [hd]; simp) p b vs
  have := outer_attachments_side sources H known h hcl p hp _ ha h2 hreads hfree
  rw [h1] at this
  refine ⟨hd, ?_⟩
  simp only [List.mem_cons, List.not_mem_nil, or_false] at hm
  rcases hm with rfl | rfl | rfl | rfl | rfl <;> exact this

/-- C51 (partial: views not merged; the reader's view is the writer's one, or a single level of it). An output attachment and
the input attachment of a pass that depends on it for this data appear together in a reported transition, of the view of the one that has a single
level. -/
theorem connected_attachments_reported_partial (sources : View → List View) (H : Heap) (known : View → Prop)
    (h : WellFormed H known) (hp : PlainViews sources H known) (hcl : Closed H) (hac : Acyclic H) (a b : Nat)
    (ha : a ∈ H.univ) (hb : b ∈ H.univ) (o i : Attachment) (ho : o ∈ (H.pass a).images) (hi : i ∈ (H.pass b).images)
    (hout : o.isOutput = true) (hin : i.isInput = true)
    (hasp : (viewOf o).range.aspect = (viewOf i).range.aspect)
    (hview : SameView (viewOf o) (viewOf i)
      ∨ ((viewOf i).range.levels = 1 ∧ ShareData (viewOf i) (viewOf o)
        ∧ ((getVirtualRange (viewOf i).image (viewOf i).viewType (viewOf i).range).layers
              = (getVirtualRange (viewOf o).image (viewOf o).viewType (viewOf o).range).layers
            ∨ (getVirtualRange (viewOf i).image (viewOf i).viewType (viewOf i).range).baseLayer
              ≤ (getVirtualRange (viewOf o).image (viewOf o).viewType (viewOf o).range).baseLayer)))
    (hvia : Via H (WritesView (viewOf o)) (ReadsView (viewOf o)) (H.pass a).id b) :
    ∃ t ∈ ((viewKind sources).build H H.univ).all, attachEq t.output o = true ∧ attachEq t.input i = true
      ∧ ∃ v, v = (if (viewOf o).range.levels = 1 then viewOf o else viewOf i) ∧ (t.data = v ∨ SameView t.data v) := by
  have ko := (h.images a ha o ho).2
  have ki := (h.images b hb i hi).2
  -- the two contexts
  have hIV := fun (a t : Nat) (v : View) (c : Cache) (ha : a ∈ H.univ) (ht : t ∈ H.univ) (hv : known v)
    (hc : ViewCacheExact sources H known c) => (viewCacheExact_step hcl hac hp a t v ha ht hv c hc).1
  have cv := view_ctx sources H known h (fun _ _ => False) (fun _ _ h => h) (fun _ _ _ _ h => h.elim)
    (ViewCacheExact sources H known) hIV
  have hI0 : ViewCacheExact sources H known Cache.empty := fun _ _ _ _ _ _ hx => by simp [Cache.empty] at hx
  have hat := views_attached sources H known h
  -- questions about the two views are answered yes
  have yes : ∀ v c, known v → Via H (WritesView v) (ReadsView v) (H.pass a).id b → ViewCacheExact sources H known c →
      ((viewKind sources).dependsOn H b a v c).1 = true := by
    intro v c hv hvia hc
    refine (viewCacheExact_step hcl hac hp b a v hb ha hv c hc).2.2 ?_
    exact via_congr H hcl _ (fun x hx => (viewInOutputs_iff hp x hx _ hv).symm)
      (fun x hx => (viewInInputs_iff hp x hx _ hv).symm) _ hb hvia
  have viaSame : SameView (viewOf o) (viewOf i) →
      Via H (WritesView (viewOf i)) (ReadsView (viewOf i)) (H.pass a).id b := by
    intro hs
    refine via_congr H hcl _ (fun x _ => ?_) (fun x _ => ?_) _ hb hvia
    · unfold WritesView; simp only [sameView_writes hs hasp]
    · unfold ReadsView; simp only [sameView_writes hs hasp]
  -- the two attachments are held
  have hsame : ∀ x y, ImageOf H x → ImageOf H y →
      (viewKind sources).same ((viewKind sources).get x) ((viewKind sources).get y) = true →
      (viewKind sources).get x = (viewKind sources).get y := by
    intro x y hx hy hs
    have : (viewOf x).id = (viewOf y).id := by simpa [viewKind] using hs
    exact h.views _ _ (h.images _ hx.1 _ hx.2).2 (h.images _ hy.1 _ hy.2).2 this
  obtain ⟨o', ho', heldO⟩ := cv.collect_out H.univ hat hsame (fun x _ => split_view_ne sources x) a ha o ho hout
  obtain ⟨i', hi', heldI⟩ := cv.collect_in H.univ hat hsame (fun x _ => split_view_ne sources x) b hb i hi hin
  have hthree := cv.collect H.univ hat
  have imO : ImageOf H o' := by
    obtain ⟨x, hx, -, hm⟩ := heldO
    exact ((hthree.2.1 x hx).attaches o' hm).1.1
  have imI : ImageOf H i' := by
    obtain ⟨x, hx, -, hm⟩ := heldI
    exact ((hthree.1 x hx).attaches i' hm).1.1
  have pO : o'.pass = a := by
    rcases ho' with rfl | e
    · exact (h.images a ha _ ho).1
    · rw [attachEq_pass e]; exact (h.images a ha _ ho).1
  have pI : i'.pass = b := by
    rcases hi' with rfl | e
    · exact (h.images b hb _ hi).1
    · rw [attachEq_pass e]; exact (h.images b hb _ hi).1
  have vO : viewOf o' = viewOf o := by
    rcases ho' with rfl | e
    · rfl
    · exact h.views _ _ (h.images _ imO.1 _ imO.2).2 ko (attachEq_view e)
  have vI : viewOf i' = viewOf i := by
    rcases hi' with rfl | e
    · rfl
    · exact h.views _ _ (h.images _ imI.1 _ imI.2).2 ki (attachEq_view e)
  -- overlap
  have hov : overlappingViews (viewOf i) (viewOf o) = true := by
    rcases hview with hs | ⟨-, h2, h3⟩
    · obtain ⟨l, m, hc⟩ := (hp.ok _ ko).1
      refine (overlap_iff_partial _ _ (hp.ok _ ki).1 (hp.ok _ ko).1 (.inl ?_)).2
        ⟨by rw [hs.1], l, m, (hs.2.2.2 l m).1 hc, hc⟩
      have hne := (hp.ok _ ki).1
      have hx := hs.2.2.2
      simp only [covers_iff] at hne hx
      exact (has_ext hne fun l m => (hx l m).symm).2.1
    · exact (overlap_iff_partial _ _ (hp.ok _ ki).1 (hp.ok _ ko).1 h3).2 h2
  have single : ∀ v w : View, isSingleMipView v w = true ↔ (w.image.id = v.image.id
      ∧ (w.range.baseMip ≤ v.range.baseMip ∧ v.range.baseMip < w.range.baseMip + w.range.levels) ∧ v.range.levels = 1) := by
    intro v w
    unfold isSingleMipView isInRange
    simp only [Bool.and_eq_true, beq_iff_eq, decide_eq_true_eq, and_assoc, ge_iff_le]
  -- the reader's single level is one of the writer's
  have hsingle : ¬ SameView (viewOf o) (viewOf i) → isSingleMipView (viewOf i) (viewOf o) = true := by
    intro hns
    rcases hview with hs | ⟨h1, ⟨h2, l, m, h3, h4⟩, -⟩
    · exact absurd hs hns
    · rw [single]
      rw [covers_iff] at h3 h4
      have em : ∀ img vt r, (getVirtualRange img vt r).baseMip = r.baseMip
          ∧ (getVirtualRange img vt r).levels = r.levels := by
        intro img vt r; unfold getVirtualRange; split <;> exact ⟨rfl, rfl⟩
      unfold Range.Has at h3 h4
      rw [(em _ _ _).1, (em _ _ _).2] at h3 h4
      exact ⟨h2.symm, by omega, h1⟩
  have hrec := cv.build_recorded H.univ hat hI0 o' i' (viewOf o) (viewOf i) heldO heldI hov (by
    intro c hc
    change ((viewKind sources).dependsOn H i'.pass o'.pass (getOutputView (viewOf i') (viewOf o')) c).1 = true
    rw [pO, pI, vO, vI]
    unfold getOutputView
    split
    · exact yes _ c ko hvia hc
    · rename_i hns
      refine yes _ c ki (viaSame (Classical.byContradiction fun hn => hns (hsingle hn))) hc)
  obtain ⟨⟨x, hx, h1⟩, -⟩ := hrec
  have bv := cv.build H.univ hat hI0
  have hdata : (viewKind sources).getInput o' i' = (if (viewOf o).range.levels = 1 then viewOf o else viewOf i) := by
    have e1 : (viewKind sources).getInput o' i' = getInputView (viewOf o) (viewOf i) := by rw [← vO, ← vI]; rfl
    rw [e1]
    unfold getInputView
    by_cases hid : (viewOf o).id = (viewOf i).id
    · have : viewOf o = viewOf i := h.views _ _ ko ki hid
      simp [this]
    · by_cases hl : (viewOf o).range.levels = 1
      · have : isSingleMipView (viewOf o) (viewOf i) = true := by
          have em : ∀ img vt r, (getVirtualRange img vt r).baseMip = r.baseMip
              ∧ (getVirtualRange img vt r).levels = r.levels := by
            intro img vt r; unfold getVirtualRange; split <;> exact ⟨rfl, rfl⟩
          have share : (viewOf o).image.id = (viewOf i).image.id ∧ ∃ l m, Covers (viewOf o) l m ∧ Covers (viewOf i) l m := by
            rcases hview with hs | ⟨-, ⟨h2, l, m, h3, h4⟩, -⟩
            · obtain ⟨l, m, hc⟩ := (hp.ok _ ko).1
              exact ⟨by rw [hs.1], l, m, hc, (hs.2.2.2 l m).1 hc⟩
            · exact ⟨h2.symm, l, m, h4, h3⟩
          obtain ⟨g1, l, m, g2, g3⟩ := share
          rw [single]
          rw [covers_iff] at g2 g3
          unfold Range.Has at g2 g3
          rw [(em _ _ _).1, (em _ _ _).2] at g2 g3
          exact ⟨g1.symm, by omega, hl⟩
        rw [this, if_pos hl]; simp
      · have : isSingleMipView (viewOf o) (viewOf i) = false := by
          rw [Bool.eq_false_iff]
          intro c
          exact hl ((single _ _).1 c).2.2
        rw [this, if_neg hl]; simp [hid]
  have eo : attachEq o' o = true := by
    rcases ho' with rfl | e
    · exact attachEq_refl _
    · exact e
  have ei : attachEq i' i = true := by
    rcases hi' with rfl | e
    · exact attachEq_refl _
    · exact e
  rcases h1 with rfl | h1
  · exact ⟨_, hx, eo, ei, _, rfl, .inl hdata⟩
  · refine ⟨x, hx, attachEq_trans (transEq_attach h1).1 eo, attachEq_trans (transEq_attach h1).2 ei, _, rfl, .inr ?_⟩
    have kv : known (if (viewOf o).range.levels = 1 then viewOf o else viewOf i) := by split <;> assumption
    have xk := (bv.all.all x hx).1
    unfold Kind.transEq at h1
    simp only [Bool.and_eq_true] at h1
    have hm := h1.1.1
    rw [hdata] at hm
    exact (matchView_iff _ _ (hp.ok _ xk) (hp.ok _ kv) (hp.images _ _ xk kv)).1 hm

/-! ### Examples -/

/-- A view of an image nobody writes. -/
def texture : View := ⟨2, ⟨2, 37, 1, 1, 64, 64, 1⟩, .d2, 37, ⟨Aspect.color, 0, 1, 0, 1⟩⟩

/-- Pass 1 samples a texture nobody writes and writes view 1; pass 2 depends on it and reads view 1. -/
def reportHeap : Heap := heapOf
  [([], [ImageAdder.sampled.attach 1 0 [texture], ImageAdder.outputStorage.attach 1 1 [oView 1 0 1]], []),
   ([1], [ImageAdder.sampled.attach 2 0 [oView 1 0 1]], [])]

theorem report_wellFormed : WellFormed reportHeap (fun v => v = oView 1 0 1 ∨ v = texture) := by
  refine ⟨by decide, by decide, by decide, by decide, by decide, ?_, ?_⟩
  · rintro v w (rfl | rfl) (rfl | rfl) <;> decide
  · rintro v (rfl | rfl) <;> decide

/-- The hypotheses hold of the texture: reported as coming from outside. -/
example : Reported ((viewKind noSources).build reportHeap reportHeap.univ).all (ImageAdder.sampled.attach 1 0 [texture]) := by
  refine outer_attachments_reported_partial noSources reportHeap _ report_wellFormed (by unfold Closed; decide) 1 (by decide) _
    (by decide) (by decide) ?_ ?_
  · intro d _ hd
    cases hd with
    | direct h => simp [reportHeap, heapOf] at h
    | step h _ => simp [reportHeap, heapOf] at h
  · unfold NotPassedOn
    decide

/-- What is written and read is reported from writer to reader. -/
example : ((viewKind noSources).build reportHeap reportHeap.univ).all.map (fun t => (t.data.id, t.output.pass, t.input.pass))
    = [(2, 0, 1), (1, 1, 2)] := by decide

/-- A uniform buffer nobody writes. -/
example : Reported (bufferKind.build (heapOf [([], [], [BufferAdder.uniform.attach 1 0 [7] 0 0 64])]) [1]).all
    (BufferAdder.uniform.attach 1 0 [7] 0 0 64) := by
  unfold Reported
  decide

def shadows : View := ⟨1, ⟨1, 126, 1, 1, 64, 64, 1⟩, .d2, 126, ⟨Aspect.depth, 0, 1, 0, 1⟩⟩
def target : View := ⟨3, ⟨3, 37, 1, 1, 64, 64, 1⟩, .d2, 37, ⟨Aspect.color, 0, 1, 0, 1⟩⟩

/-- A pass that reads a texture, tests against a depth image of another graph and draws into a target. -/
def depthHeap : Heap := heapOf [([], [ImageAdder.inputDepth.attach 1 0 [shadows], ImageAdder.sampled.attach 1 0 [texture],
  ImageAdder.outputColour.attach 1 0 [target]], [])]

theorem depth_wellFormed : WellFormed depthHeap (fun v => v = shadows ∨ v = texture ∨ v = target) := by
  refine ⟨by decide, by decide, by decide, by decide, by decide, ?_, ?_⟩
  · rintro v w (rfl | rfl | rfl) (rfl | rfl | rfl) <;> decide
  · rintro v (rfl | rfl | rfl) <;> decide

theorem depth_reads : ReadsNoResult depthHeap 1 := by
  intro d _ hd
  cases hd with
  | direct h => simp [depthHeap, heapOf] at h
  | step h _ => simp [depthHeap, heapOf] at h

/-- The hypotheses hold: the texture comes from outside and the target goes outside; but the depth image, which is only
tested against, goes outside too. -/
theorem example_directions :
    FromOutside ((viewKind noSources).build depthHeap depthHeap.univ).all (ImageAdder.sampled.attach 1 0 [texture])
    ∧ ToOutside ((viewKind noSources).build depthHeap depthHeap.univ).all (ImageAdder.outputColour.attach 1 0 [target])
    ∧ ToOutside ((viewKind noSources).build depthHeap depthHeap.univ).all (ImageAdder.inputDepth.attach 1 0 [shadows]) :=
  ⟨(outer_images_directed_partial noSources depthHeap _ depth_wellFormed (by unfold Closed; decide) 1 (by decide) .sampled 0 [texture]
      (by decide) depth_reads (by unfold NotPassedOn; decide)).1 (by decide),
    (outer_images_directed_partial noSources depthHeap _ depth_wellFormed (by unfold Closed; decide) 1 (by decide) .outputColour 0
      [target] (by decide) depth_reads (by unfold NotPassedOn; decide)).2 (by decide),
    (outer_input_reported_as_output noSources depthHeap _ depth_wellFormed (by unfold Closed; decide) 1 (by decide) .inputDepth 0
      [shadows] (by decide) depth_reads (by unfold NotPassedOn; decide) (by decide)).2⟩

/-- All that is reported: (view, from, to), 0 is the outside. -/
example : ((viewKind noSources).build depthHeap depthHeap.univ).all.map (fun t => (t.data.id, t.output.pass, t.input.pass))
    = [(1, 1, 0), (2, 0, 1), (3, 1, 0)] := by decide

end Verif.Deps
