import Verif.Props.Dependency
/-
Lemmas on the construction of transitions and of the graph, for views and buffers alike.
-/
namespace Verif.Deps
open Verif.Att

variable {D : Type}

theorem foldl_inv {S X : Type} (Q : S → Prop) (f : S → X → S) (xs : List X) (h : ∀ s x, x ∈ xs → Q s → Q (f s x))
    (s : S) (hs : Q s) : Q (xs.foldl f s) := by
  induction xs generalizing s with
  | nil => exact hs
  | cons x xs ih => exact ih (fun s y hy => h s y (by simp [hy])) _ (h s x (by simp) hs)

/-- A fact established by one step and kept by the others. -/
theorem foldl_reach {S X : Type} (I Q : S → Prop) (f : S → X → S) (xs : List X) (x : X) (hx : x ∈ xs)
    (hI : ∀ s y, y ∈ xs → I s → I (f s y)) (hQ : ∀ s y, y ∈ xs → I s → Q s → Q (f s y))
    (hmake : ∀ s, I s → Q (f s x)) (s : S) (hs : I s) : Q (xs.foldl f s) := by
  induction xs generalizing s with
  | nil => simp at hx
  | cons y ys ih =>
    have keep : I (f s y) := hI s y (by simp) hs
    rw [List.foldl_cons]
    rcases List.mem_cons.1 hx with rfl | hx
    · exact (foldl_inv (fun s => I s ∧ Q s) f ys
        (fun s z hz h => ⟨hI s z (by simp [hz]) h.1, hQ s z (by simp [hz]) h.1 h.2⟩) _ ⟨keep, hmake s hs⟩).2
    · exact ih hx (fun s z hz => hI s z (by simp [hz])) (fun s z hz => hQ s z (by simp [hz])) _ keep

/-! ### Inserting transitions -/

theorem insertBefore_spec (K : Kind D) (H : Heap) (t : Trans D) : ∀ (ts : List (Trans D)) (c : Cache)
    (r : List (Trans D)), (K.insertBefore H t ts c).1 = some r → ∃ l1 l2, ts = l1 ++ l2 ∧ r = l1 ++ t :: l2 := by
  intro ts
  induction ts with
  | nil => intro c r h; simp [Kind.insertBefore] at h
  | cons x xs ih =>
    intro c r h
    simp only [Kind.insertBefore] at h
    split at h
    · simp only [Option.some.injEq] at h
      exact ⟨[], x :: xs, rfl, h.symm⟩
    · simp only [Option.map_eq_some_iff] at h
      obtain ⟨r', h1, rfl⟩ := h
      obtain ⟨l1, l2, e1, e2⟩ := ih _ _ h1
      exact ⟨x :: l1, l2, by simp [e1], by simp [e2]⟩

theorem insertAfter_spec (K : Kind D) (H : Heap) (t : Trans D) : ∀ (ts : List (Trans D)) (c : Cache)
    (r : List (Trans D)), (K.insertAfter H t ts c).1 = some r →
    ∃ l1 l2, ts.reverse = l1 ++ l2 ∧ r = l1 ++ t :: l2 := by
  intro ts
  induction ts with
  | nil => intro c r h; simp [Kind.insertAfter] at h
  | cons x xs ih =>
    intro c r h
    simp only [Kind.insertAfter] at h
    split at h
    · simp only [Option.some.injEq] at h
      exact ⟨(x :: xs).reverse, [], by simp, h.symm⟩
    · simp only [Option.map_eq_some_iff] at h
      obtain ⟨r', h1, rfl⟩ := h
      obtain ⟨l1, l2, e1, e2⟩ := ih _ _ h1
      exact ⟨l1, l2 ++ [x], by simp [e1], by simp [e2]⟩

/-- The transition is inserted somewhere, unless an equal one is there. -/
theorem insertTransition_spec (K : Kind D) (H : Heap) (t : Trans D) (ts : List (Trans D)) (c : Cache) :
    ((K.insertTransition H t ts c).1 = ts ∧ ∃ x ∈ ts, K.transEq x t = true)
    ∨ (∃ l1 l2, ts = l1 ++ l2 ∧ (K.insertTransition H t ts c).1 = l1 ++ t :: l2) ∧ ∀ x ∈ ts, ¬ K.transEq x t = true := by
  unfold Kind.insertTransition
  split
  · rename_i h
    exact .inl ⟨rfl, List.any_eq_true.1 h⟩
  · rename_i h
    refine .inr ⟨?_, fun x hx he => h (List.any_eq_true.2 ⟨x, hx, he⟩)⟩
    simp only
    split
    · rename_i r e
      exact insertBefore_spec K H t ts c r e
    · split
      · rename_i r e
        obtain ⟨l1, l2, e1, e2⟩ := insertAfter_spec K H t _ _ r e
        exact ⟨l1, l2, by rw [← e1, List.reverse_reverse], e2⟩
      · exact ⟨ts, [], by simp, rfl⟩

theorem insertTransition_sub (K : Kind D) (H : Heap) (t : Trans D) (ts : List (Trans D)) (c : Cache) :
    ∀ x ∈ ts, x ∈ (K.insertTransition H t ts c).1 := by
  intro x hx
  rcases insertTransition_spec K H t ts c with ⟨h, -⟩ | ⟨⟨l1, l2, e1, e2⟩, -⟩
  · rw [h]; exact hx
  · rw [e2]
    rw [e1] at hx
    simp only [List.mem_append, List.mem_cons] at hx ⊢
    rcases hx with h | h
    · exact .inl h
    · exact .inr (.inr h)

/-- Afterwards the transition, or an equal one, is there. -/
theorem insertTransition_has (K : Kind D) (H : Heap) (t : Trans D) (ts : List (Trans D)) (c : Cache) :
    ∃ x ∈ (K.insertTransition H t ts c).1, x = t ∨ K.transEq x t = true := by
  rcases insertTransition_spec K H t ts c with ⟨h, x, hx, he⟩ | ⟨⟨l1, l2, e1, e2⟩, -⟩
  · rw [h]; exact ⟨x, hx, .inr he⟩
  · rw [e2]; exact ⟨t, by simp, .inl rfl⟩

theorem mem_insertTransition (K : Kind D) (H : Heap) (t : Trans D) (ts : List (Trans D)) (c : Cache) (x : Trans D)
    (hx : x ∈ (K.insertTransition H t ts c).1) : x = t ∨ x ∈ ts := by
  rcases insertTransition_spec K H t ts c with ⟨h, -⟩ | ⟨⟨l1, l2, e1, e2⟩, -⟩
  · rw [h] at hx; exact .inr hx
  · rw [e2] at hx
    rw [e1]
    simp only [List.mem_append, List.mem_cons] at hx ⊢
    rcases hx with h | h | h
    · exact .inr (.inl h)
    · exact .inl h
    · exact .inr (.inr h)

/-! ### What holds of the transitions made -/

/-- `Ao`, `Ai`, `A`: the attachments used as outputs, inputs, any; `grp`: a class of data that equal or overlapping
data share; `P`: what holds of the transitions; `R`: when two transitions are the same; `I`: what holds of the cache. -/
structure Ctx (K : Kind D) (H : Heap) (Ao Ai A : Attachment → Prop) (grp : D → Nat) (P : Trans D → Prop)
    (R : Trans D → Trans D → Prop) (I : Cache → Prop) : Prop where
  out : ∀ a, Ao a → A a
  inp : ∀ a, Ai a → A a
  split : ∀ a x, x ∈ K.split a → x = a
  same : ∀ a b, A a → A b → K.same (K.get a) (K.get b) = true → grp (K.get a) = grp (K.get b)
  overlap : ∀ x y, K.overlap x y = true → grp x = grp y
  dep : ∀ o i, Ao o → Ai i → grp (K.get o) = grp (K.get i) → P ⟨K.getInput o i, o, i⟩ ∧ P ⟨K.getOutput o i, o, i⟩
  rest : ∀ a, A a → P ⟨K.get a, K.external (K.get a), a⟩ ∧ P ⟨K.get a, a, K.external (K.get a)⟩
  symm : ∀ x y, R x y → R y x
  eq : ∀ x y, P x → P y → R x y → K.transEq x y = true
  cache : ∀ t c, P t → t.input.pass ≠ 0 → t.output.pass ≠ 0 → I c →
    I (K.dependsOn H t.input.pass t.output.pass t.data c).2
  pair : ∀ o i c, Ao o → Ai i → I c → I (K.dependsOn H i.pass o.pass (K.getOutput i o) c).2

structure GoodList (P : Trans D → Prop) (R : Trans D → Trans D → Prop) (ts : List (Trans D)) : Prop where
  all : ∀ t ∈ ts, P t
  distinct : ts.Pairwise fun x y => ¬ R x y

structure GoodBuilt (P : Trans D → Prop) (R : Trans D → Trans D → Prop) (I : Cache → Prop) (b : Built D) : Prop where
  all : GoodList P R b.all
  ins : ∀ e ∈ b.ins, GoodList P R e.2
  outs : ∀ e ∈ b.outs, GoodList P R e.2
  cache : I b.cache

/-- An entry of the collected attachments. -/
structure GoodEntry (K : Kind D) (S : Attachment → Prop) (grp : D → Nat) (x : Attaches D) : Prop where
  data : ∃ a, S a ∧ x.data = K.get a
  attaches : ∀ b ∈ x.attaches, S b ∧ grp (K.get b) = grp x.data

section
variable {K : Kind D} {H : Heap} {Ao Ai A : Attachment → Prop} {grp : D → Nat} {P : Trans D → Prop}
  {R : Trans D → Trans D → Prop} {I : Cache → Prop}

theorem Ctx.carries (h : Ctx K H Ao Ai A grp P R I) (t : Trans D) (c : Cache) (ht : P t) (hc : I c) :
    I (K.carries H t c).2 := by
  unfold Kind.carries
  split
  · rename_i hp; exact h.cache t c ht hp.1 hp.2 hc
  · exact hc

theorem Ctx.insertBefore (h : Ctx K H Ao Ai A grp P R I) (t : Trans D) : ∀ (ts : List (Trans D)) (c : Cache),
    (∀ x ∈ ts, P x) → I c → I (K.insertBefore H t ts c).2 := by
  intro ts
  induction ts with
  | nil => intro c _ hc; exact hc
  | cons x xs ih =>
    intro c hx hc
    have h1 := h.carries x c (hx x (by simp)) hc
    simp only [Kind.insertBefore]
    split
    · exact h1
    · exact ih _ (fun y hy => hx y (by simp [hy])) h1

theorem Ctx.insertAfter (h : Ctx K H Ao Ai A grp P R I) (t : Trans D) (ht : P t) : ∀ (ts : List (Trans D)) (c : Cache),
    I c → I (K.insertAfter H t ts c).2 := by
  intro ts
  induction ts with
  | nil => intro c hc; exact hc
  | cons x xs ih =>
    intro c hc
    have h1 := h.carries t c ht hc
    simp only [Kind.insertAfter]
    split
    · exact h1
    · exact ih _ h1

theorem Ctx.insertTransition (h : Ctx K H Ao Ai A grp P R I) (t : Trans D) (ts : List (Trans D)) (c : Cache) (ht : P t)
    (hts : GoodList P R ts) (hc : I c) :
    GoodList P R (K.insertTransition H t ts c).1 ∧ I (K.insertTransition H t ts c).2 := by
  constructor
  · refine ⟨?_, ?_⟩
    · intro x hx
      rcases mem_insertTransition K H t ts c x hx with rfl | hx
      · exact ht
      · exact hts.all x hx
    · rcases insertTransition_spec K H t ts c with ⟨e, -⟩ | ⟨⟨l1, l2, e1, e2⟩, hn⟩
      · rw [e]; exact hts.distinct
      · rw [e2]
        have hd := hts.distinct
        have hP := hts.all
        subst e1
        have hne : ∀ x ∈ l1 ++ l2, ¬ R x t := fun x hx hr => hn x hx (h.eq x t (hP x hx) ht hr)
        rw [List.pairwise_append] at hd ⊢
        refine ⟨hd.1, ?_, ?_⟩
        · rw [List.pairwise_cons]
          exact ⟨fun y hy hr => hne y (by simp [hy]) (h.symm _ _ hr), hd.2.1⟩
        · intro x hx y hy
          rcases List.mem_cons.1 hy with rfl | hy
          · exact hne x (by simp [hx])
          · exact hd.2.2 x hx y hy
  · unfold Kind.insertTransition
    split
    · exact hc
    · have h1 := h.insertBefore t ts c hts.all hc
      simp only
      split
      · exact h1
      · have h2 := h.insertAfter t ht ts.reverse _ h1
        split
        · exact h2
        · exact h2

theorem updatePass_good {S : Type} (Q : S → Prop) (p : Nat) (f : List (Trans D) → S → List (Trans D) × S)
    (hf : ∀ ts s, GoodList P R ts → Q s → GoodList P R (f ts s).1 ∧ Q (f ts s).2) :
    ∀ (xs : PassTrans D) (s : S), (∀ e ∈ xs, GoodList P R e.2) → Q s →
    (∀ e ∈ (updatePass p f xs s).1, GoodList P R e.2) ∧ Q (updatePass p f xs s).2 := by
  intro xs
  induction xs with
  | nil =>
    intro s _ hs
    obtain ⟨h1, h2⟩ := hf [] s ⟨by simp, List.Pairwise.nil⟩ hs
    exact ⟨by simpa [updatePass] using h1, h2⟩
  | cons x xs ih =>
    intro s hx hs
    obtain ⟨q, ts⟩ := x
    unfold updatePass
    split
    · obtain ⟨h1, h2⟩ := hf ts s (hx (q, ts) (by simp)) hs
      refine ⟨?_, h2⟩
      intro e he
      rcases List.mem_cons.1 he with rfl | he
      · exact h1
      · exact hx e (by simp [he])
    · obtain ⟨h1, h2⟩ := ih s (fun e he => hx e (by simp [he])) hs
      refine ⟨?_, h2⟩
      intro e he
      rcases List.mem_cons.1 he with rfl | he
      · exact hx _ (by simp)
      · exact h1 e he

theorem Ctx.addDependency (h : Ctx K H Ao Ai A grp P R I) (o i : Attachment) (ho : Ao o) (hi : Ai i)
    (hg : grp (K.get o) = grp (K.get i)) (b : Built D) (hb : GoodBuilt P R I b) :
    GoodBuilt P R I (K.addDependency H o i b) := by
  obtain ⟨p1, p2⟩ := h.dep o i ho hi hg
  obtain ⟨a1, a2⟩ := h.insertTransition _ _ _ p1 hb.all hb.cache
  unfold Kind.addDependency
  simp only
  generalize hr : (if !K.agree (K.get o) (K.get i) then _ else _ : List (Trans D) × Cache) = r
  have hr2 : GoodList P R r.1 ∧ I r.2 := by
    rw [← hr]
    split
    · exact h.insertTransition _ _ _ p2 a1 a2
    · exact ⟨a1, a2⟩
  obtain ⟨x1, x2⟩ := updatePass_good (P := P) (R := R) I i.pass (K.insertTransition H ⟨K.getInput o i, o, i⟩)
    (fun ts s hts hs => h.insertTransition _ _ _ p1 hts hs) b.ins r.2 hb.ins hr2.2
  obtain ⟨y1, y2⟩ := updatePass_good (P := P) (R := R) I o.pass (K.insertTransition H ⟨K.getOutput o i, o, i⟩)
    (fun ts s hts hs => h.insertTransition _ _ _ p2 hts hs) b.outs _ hb.outs x2
  exact ⟨hr2.1, x1, y1, y2⟩

theorem Ctx.buildPair (h : Ctx K H Ao Ai A grp P R I) (o i : Attachment) (ho : Ao o) (hi : Ai i)
    (hg : grp (K.get o) = grp (K.get i)) (b : Built D) (hb : GoodBuilt P R I b) :
    GoodBuilt P R I (K.buildPair H o i b) := by
  have h1 := h.pair o i b.cache ho hi hb.cache
  unfold Kind.buildPair
  simp only
  split
  · exact h.addDependency o i ho hi hg _ ⟨hb.all, hb.ins, hb.outs, h1⟩
  · exact ⟨hb.all, hb.ins, hb.outs, h1⟩

theorem Ctx.buildEntry (h : Ctx K H Ao Ai A grp P R I) (o i : Attaches D) (ho : GoodEntry K Ao grp o)
    (hi : GoodEntry K Ai grp i) (s : Built D × List (Attaches D)) (hb : GoodBuilt P R I s.1) :
    GoodBuilt P R I (K.buildEntry H o i s).1 := by
  unfold Kind.buildEntry
  split
  · rename_i hov
    have hg := h.overlap _ _ hov
    refine foldl_inv (GoodBuilt P R I) _ _ (fun b oa hoa hb => ?_) _ hb
    refine foldl_inv (GoodBuilt P R I) _ _ (fun b ia hia hb => ?_) _ hb
    obtain ⟨q1, q2⟩ := ho.attaches oa hoa
    obtain ⟨q3, q4⟩ := hi.attaches ia hia
    exact h.buildPair oa ia q1 q3 (by rw [q2, q4, hg]) b hb
  · exact hb

theorem Ctx.addRemaining (h : Ctx K H Ao Ai A grp P R I) (a : Attachment) (ha : A a) (b : Built D)
    (hb : GoodBuilt P R I b) : GoodBuilt P R I (K.addRemaining H a b) := by
  unfold Kind.addRemaining
  simp only
  generalize ht : (if K.remainingInput a = true then _ else _ : Trans D) = t
  have hP : P t := by
    rw [← ht]
    split
    · exact (h.rest a ha).1
    · exact (h.rest a ha).2
  obtain ⟨x1, x2⟩ := updatePass_good (P := P) (R := R)
    (fun s : Option (Trans D) × Cache => (∀ l, s.1 = some l → P l) ∧ I s.2) a.pass
    (fun ts s => ((K.insertTransition H t ts s.2).1, ((K.insertTransition H t ts s.2).1.getLast?,
      (K.insertTransition H t ts s.2).2)))
    (fun ts s hts hs => by
      obtain ⟨g1, g2⟩ := h.insertTransition t ts s.2 hP hts hs.2
      exact ⟨g1, fun l hl => g1.all l (List.mem_of_getLast? hl), g2⟩) b.ins (none, b.cache) hb.ins
    ⟨by simp, hb.cache⟩
  split
  · exact ⟨hb.all, x1, hb.outs, x2.2⟩
  · rename_i l hl
    obtain ⟨g1, g2⟩ := h.insertTransition l b.all _ (x2.1 l hl) hb.all x2.2
    exact ⟨g1, x1, hb.outs, g2⟩

/-! ### Collected attachments -/

theorem mem_pushAttach (a : Attachment) (l : List Attachment) (b : Attachment) (h : b ∈ pushAttach a l) :
    b = a ∨ b ∈ l := by
  unfold pushAttach at h
  split at h
  · exact .inr h
  · simp only [List.mem_append, List.mem_singleton] at h
    exact h.symm

theorem pushAttach_sub (a : Attachment) (l : List Attachment) (b : Attachment) (h : b ∈ l) : b ∈ pushAttach a l := by
  unfold pushAttach
  split
  · exact h
  · simp [h]

theorem pushAttach_has (a : Attachment) (l : List Attachment) : ∃ b ∈ pushAttach a l, b = a ∨ attachEq b a = true := by
  unfold pushAttach
  split
  · rename_i h
    obtain ⟨b, h1, h2⟩ := List.any_eq_true.1 h
    exact ⟨b, h1, .inr h2⟩
  · exact ⟨a, by simp, .inl rfl⟩

theorem insertAttach_good {S : Attachment → Prop}
    (hsame : ∀ a b, S a → S b → K.same (K.get a) (K.get b) = true → grp (K.get a) = grp (K.get b)) (a : Attachment)
    (ha : S a) : ∀ (cont : List (Attaches D)), (∀ x ∈ cont, GoodEntry K S grp x) →
    ∀ x ∈ K.insertAttach a cont, GoodEntry K S grp x := by
  intro cont
  induction cont with
  | nil =>
    intro _ x hx
    simp only [Kind.insertAttach, List.mem_singleton] at hx
    subst hx
    refine ⟨⟨a, ha, rfl⟩, fun b hb => ?_⟩
    rcases mem_pushAttach a [] b hb with rfl | hb
    · exact ⟨ha, rfl⟩
    · simp at hb
  | cons y ys ih =>
    intro hc x hx
    unfold Kind.insertAttach at hx
    have hy := hc y (by simp)
    split at hx
    · rename_i hs
      rcases List.mem_cons.1 hx with rfl | hx
      · refine ⟨hy.data, fun b hb => ?_⟩
        rcases mem_pushAttach _ _ _ hb with rfl | hb
        · obtain ⟨a', ha', e⟩ := hy.data
          refine ⟨ha, ?_⟩
          rw [e] at hs ⊢
          exact (hsame _ _ ha' ha hs).symm
        · exact hy.attaches b hb
      · exact hc x (by simp [hx])
    · rcases List.mem_cons.1 hx with rfl | hx
      · exact hy
      · exact ih (fun z hz => hc z (by simp [hz])) x hx

theorem addOverlapping_good {S : Attachment → Prop} (hov : ∀ x y, K.overlap x y = true → grp x = grp y)
    (a : Attachment) (ha : S a) (cont : List (Attaches D)) (hc : ∀ x ∈ cont, GoodEntry K S grp x) :
    ∀ x ∈ K.addOverlapping a cont, GoodEntry K S grp x := by
  intro x hx
  unfold Kind.addOverlapping at hx
  obtain ⟨y, hy, e⟩ := List.mem_map.1 hx
  have hg := hc y hy
  split at e
  · rename_i ho
    subst e
    refine ⟨hg.data, fun b hb => ?_⟩
    rcases mem_pushAttach _ _ _ hb with rfl | hb
    · exact ⟨ha, hov _ _ ho⟩
    · exact hg.attaches b hb
  · subst e; exact hg

/-- The container holds this attachment in an entry of this data. -/
def Held (cont : List (Attaches D)) (d : D) (b : Attachment) : Prop := ∃ x ∈ cont, x.data = d ∧ b ∈ x.attaches

theorem held_insertAttach (a : Attachment) (d : D) (b : Attachment) : ∀ (cont : List (Attaches D)), Held cont d b →
    Held (K.insertAttach a cont) d b := by
  intro cont
  induction cont with
  | nil => rintro ⟨x, hx, -⟩; simp at hx
  | cons y ys ih =>
    rintro ⟨x, hx, h1, h2⟩
    unfold Kind.insertAttach
    split
    · rcases List.mem_cons.1 hx with rfl | hx
      · exact ⟨_, List.mem_cons_self, h1, pushAttach_sub _ _ _ h2⟩
      · exact ⟨x, by simp [hx], h1, h2⟩
    · rcases List.mem_cons.1 hx with rfl | hx
      · exact ⟨x, by simp, h1, h2⟩
      · obtain ⟨z, hz, g⟩ := ih ⟨x, hx, h1, h2⟩
        exact ⟨z, by simp [hz], g⟩

theorem held_addOverlapping (a : Attachment) (d : D) (b : Attachment) (cont : List (Attaches D)) (h : Held cont d b) :
    Held (K.addOverlapping a cont) d b := by
  obtain ⟨x, hx, h1, h2⟩ := h
  unfold Kind.addOverlapping
  refine ⟨_, List.mem_map.2 ⟨x, hx, rfl⟩, ?_⟩
  split
  · exact ⟨h1, pushAttach_sub _ _ _ h2⟩
  · exact ⟨h1, h2⟩

theorem held_self {S : Attachment → Prop}
    (hsame : ∀ a b, S a → S b → K.same (K.get a) (K.get b) = true → K.get a = K.get b) (a : Attachment) (ha : S a) :
    ∀ (cont : List (Attaches D)), (∀ x ∈ cont, GoodEntry K S grp x) →
    ∃ b, (b = a ∨ attachEq b a = true) ∧ Held (K.insertAttach a cont) (K.get a) b := by
  intro cont
  induction cont with
  | nil =>
    intro _
    obtain ⟨b, h1, h2⟩ := pushAttach_has a []
    exact ⟨b, h2, ⟨K.get a, pushAttach a []⟩, by simp [Kind.insertAttach], rfl, h1⟩
  | cons y ys ih =>
    intro hc
    unfold Kind.insertAttach
    split
    · rename_i hs
      obtain ⟨b, h1, h2⟩ := pushAttach_has a y.attaches
      obtain ⟨a', ha', e⟩ := (hc y (by simp)).data
      rw [e] at hs
      exact ⟨b, h2, _, List.mem_cons_self, by rw [e]; exact hsame _ _ ha' ha hs, h1⟩
    · obtain ⟨b, h1, x, hx, h2⟩ := ih (fun z hz => hc z (by simp [hz]))
      exact ⟨b, h1, x, by simp [hx], h2⟩

/-- What is known of the two containers `processAttachs` fills. -/
def GoodPair (K : Kind D) (S T : Attachment → Prop) (grp : D → Nat) (s : List (Attaches D) × List (Attaches D)) : Prop :=
  (∀ x ∈ s.1, GoodEntry K S grp x) ∧ ∀ x ∈ s.2, GoodEntry K T grp x

theorem Ctx.processAttach (h : Ctx K H Ao Ai A grp P R I) {S : Attachment → Prop} (hSA : ∀ a, S a → A a)
    (a : Attachment) (ha : S a) (s : List (Attaches D) × List (Attaches D)) (hs : GoodPair K S A grp s) :
    GoodPair K S A grp (K.processAttach a s) := by
  refine foldl_inv (GoodPair K S A grp) _ _ (fun s x hx hs => ?_) _ hs
  have := h.split a x hx
  subst this
  exact ⟨insertAttach_good (fun a b ha hb => h.same a b (hSA a ha) (hSA b hb)) x ha _
    (addOverlapping_good h.overlap x ha _ hs.1), insertAttach_good h.same x (hSA x ha) _ hs.2⟩

theorem Ctx.processAttachs (h : Ctx K H Ao Ai A grp P R I) {S : Attachment → Prop} (hSA : ∀ a, S a → A a)
    (sel : Attachment → Bool) (as : List Attachment) (has : ∀ a ∈ as, sel a = true → S a)
    (s : List (Attaches D) × List (Attaches D)) (hs : GoodPair K S A grp s) :
    GoodPair K S A grp (K.processAttachs sel as s) := by
  refine foldl_inv (GoodPair K S A grp) _ _ (fun s a ha hs => ?_) _ hs
  split
  · rename_i hsel; exact h.processAttach hSA a (has a ha hsel) s hs
  · exact hs

theorem held_processAttachs (sel : Attachment → Bool) (as : List Attachment)
    (s : List (Attaches D) × List (Attaches D)) (d : D) (b : Attachment) (hs : Held s.1 d b) :
    Held (K.processAttachs sel as s).1 d b := by
  refine foldl_inv (fun s : List (Attaches D) × List (Attaches D) => Held s.1 d b) _ _ (fun s a _ hs => ?_) _ hs
  split
  · unfold Kind.processAttach
    exact foldl_inv (fun s : List (Attaches D) × List (Attaches D) => Held s.1 d b) _ _
      (fun s x _ hs => held_insertAttach _ _ _ _ (held_addOverlapping _ _ _ _ hs)) _ hs
  · exact hs

theorem Ctx.held_made (h : Ctx K H Ao Ai A grp P R I) {S : Attachment → Prop} (hSA : ∀ a, S a → A a)
    (hsame : ∀ a b, S a → S b → K.same (K.get a) (K.get b) = true → K.get a = K.get b)
    (hne : ∀ a, S a → K.split a ≠ [])
    (sel : Attachment → Bool) (as : List Attachment) (has : ∀ a ∈ as, sel a = true → S a)
    (s : List (Attaches D) × List (Attaches D)) (hs : GoodPair K S A grp s) (a : Attachment) (ha : a ∈ as)
    (hsel : sel a = true) :
    ∃ b, (b = a ∨ attachEq b a = true) ∧ Held (K.processAttachs sel as s).1 (K.get a) b := by
  refine foldl_reach (GoodPair K S A grp)
    (fun s => ∃ b, (b = a ∨ attachEq b a = true) ∧ Held s.1 (K.get a) b) _ as a ha ?_ ?_ ?_ s hs
  · intro s x hx hs
    split
    · rename_i hx'; exact h.processAttach hSA x (has x hx hx') s hs
    · exact hs
  · rintro s x hx - ⟨b, hb1, hb2⟩
    refine ⟨b, hb1, ?_⟩
    have := held_processAttachs (K := K) sel [x] s _ _ hb2
    simpa [Kind.processAttachs] using this
  · intro s hs
    rw [if_pos hsel]
    have hSa := has a ha hsel
    obtain ⟨x, xs, e⟩ := List.exists_cons_of_ne_nil (hne a hSa)
    unfold Kind.processAttach
    refine foldl_reach (GoodPair K S A grp)
      (fun s => ∃ b, (b = a ∨ attachEq b a = true) ∧ Held s.1 (K.get a) b) _ (K.split a) x (by rw [e]; simp)
      ?_ ?_ ?_ s hs
    · intro s y hy hs
      have := h.split a y hy
      subst this
      exact ⟨insertAttach_good (fun a b ha hb => h.same a b (hSA a ha) (hSA b hb)) y hSa _
        (addOverlapping_good h.overlap y hSa _ hs.1), insertAttach_good h.same y (hSA y hSa) _ hs.2⟩
    · rintro s y hy - ⟨b, hb1, hb2⟩
      exact ⟨b, hb1, held_insertAttach _ _ _ _ (held_addOverlapping _ _ _ _ hb2)⟩
    · intro s hs
      have := h.split a x (by rw [e]; simp)
      subst this
      exact held_self hsame x hSa _ (addOverlapping_good h.overlap x hSa _ hs.1)

/-- The attachments of these passes are the ones meant. -/
structure Attached (K : Kind D) (H : Heap) (nodes : List Nat) (Ao Ai : Attachment → Prop) : Prop where
  out : ∀ n ∈ nodes, ∀ a ∈ K.attaches (H.pass n), K.isOutput a = true → Ao a
  inp : ∀ n ∈ nodes, ∀ a ∈ K.attaches (H.pass n), K.isInput a = true → Ai a

/-- What is known of the three containers. -/
def GoodThree (K : Kind D) (Ao Ai A : Attachment → Prop) (grp : D → Nat)
    (s : List (Attaches D) × List (Attaches D) × List (Attaches D)) : Prop :=
  (∀ x ∈ s.1, GoodEntry K Ai grp x) ∧ (∀ x ∈ s.2.1, GoodEntry K Ao grp x) ∧ ∀ x ∈ s.2.2, GoodEntry K A grp x

theorem Ctx.collectStep (h : Ctx K H Ao Ai A grp P R I) (nodes : List Nat) (hat : Attached K H nodes Ao Ai)
    (s : List (Attaches D) × List (Attaches D) × List (Attaches D)) (hs : GoodThree K Ao Ai A grp s) (n : Nat)
    (hn : n ∈ nodes) :
    GoodPair K Ai A grp (K.processAttachs K.isInput (K.attaches (H.pass n)) (s.1, s.2.2))
    ∧ GoodPair K Ao A grp (K.processAttachs K.isOutput (K.attaches (H.pass n))
        (s.2.1, (K.processAttachs K.isInput (K.attaches (H.pass n)) (s.1, s.2.2)).2)) := by
  have h1 := h.processAttachs h.inp K.isInput (K.attaches (H.pass n)) (hat.inp n hn) (s.1, s.2.2) ⟨hs.1, hs.2.2⟩
  exact ⟨h1, h.processAttachs h.out K.isOutput (K.attaches (H.pass n)) (hat.out n hn) _ ⟨hs.2.1, h1.2⟩⟩

theorem Ctx.collect (h : Ctx K H Ao Ai A grp P R I) (nodes : List Nat) (hat : Attached K H nodes Ao Ai) :
    GoodThree K Ao Ai A grp (K.collect H nodes) := by
  refine foldl_inv (GoodThree K Ao Ai A grp) _ _ (fun s n hn hs => ?_) _ ⟨by simp, by simp, by simp⟩
  obtain ⟨h1, h2⟩ := h.collectStep nodes hat s hs n hn
  exact ⟨h1.1, h2.1, h2.2⟩

theorem Ctx.collect_in (h : Ctx K H Ao Ai A grp P R I) (nodes : List Nat) (hat : Attached K H nodes Ao Ai)
    (hsame : ∀ a b, A a → A b → K.same (K.get a) (K.get b) = true → K.get a = K.get b)
    (hne : ∀ a, A a → K.split a ≠ []) (n : Nat) (hn : n ∈ nodes) (a : Attachment) (ha : a ∈ K.attaches (H.pass n))
    (hsel : K.isInput a = true) :
    ∃ b, (b = a ∨ attachEq b a = true) ∧ Held (K.collect H nodes).1 (K.get a) b := by
  refine foldl_reach (GoodThree K Ao Ai A grp)
    (fun s => ∃ b, (b = a ∨ attachEq b a = true) ∧ Held s.1 (K.get a) b) _ nodes n hn ?_ ?_ ?_ _
    ⟨by simp, by simp, by simp⟩
  · intro s m hm hs
    obtain ⟨h1, h2⟩ := h.collectStep nodes hat s hs m hm
    exact ⟨h1.1, h2.1, h2.2⟩
  · rintro s m hm - ⟨b, hb1, hb2⟩
    exact ⟨b, hb1, held_processAttachs _ _ _ _ _ hb2⟩
  · intro s hs
    exact h.held_made h.inp (fun a b ha hb => hsame a b (h.inp a ha) (h.inp b hb)) (fun a ha => hne a (h.inp a ha))
      K.isInput _ (hat.inp n hn) (s.1, s.2.2) ⟨hs.1, hs.2.2⟩ a ha hsel

theorem Ctx.collect_out (h : Ctx K H Ao Ai A grp P R I) (nodes : List Nat) (hat : Attached K H nodes Ao Ai)
    (hsame : ∀ a b, A a → A b → K.same (K.get a) (K.get b) = true → K.get a = K.get b)
    (hne : ∀ a, A a → K.split a ≠ []) (n : Nat) (hn : n ∈ nodes) (a : Attachment) (ha : a ∈ K.attaches (H.pass n))
    (hsel : K.isOutput a = true) :
    ∃ b, (b = a ∨ attachEq b a = true) ∧ Held (K.collect H nodes).2.1 (K.get a) b := by
  refine foldl_reach (GoodThree K Ao Ai A grp)
    (fun s => ∃ b, (b = a ∨ attachEq b a = true) ∧ Held s.2.1 (K.get a) b) _ nodes n hn ?_ ?_ ?_ _
    ⟨by simp, by simp, by simp⟩
  · intro s m hm hs
    obtain ⟨h1, h2⟩ := h.collectStep nodes hat s hs m hm
    exact ⟨h1.1, h2.1, h2.2⟩
  · rintro s m hm - ⟨b, hb1, hb2⟩
    exact ⟨b, hb1, held_processAttachs _ _ _ _ _ hb2⟩
  · intro s hs
    obtain ⟨h1, h2⟩ := h.collectStep nodes hat s hs n hn
    exact h.held_made h.out (fun a b ha hb => hsame a b (h.out a ha) (h.out b hb)) (fun a ha => hne a (h.out a ha))
      K.isOutput _ (hat.out n hn)
      (s.2.1, (K.processAttachs K.isInput (K.attaches (H.pass n)) (s.1, s.2.2)).2) ⟨hs.2.1, h1.2⟩ a ha hsel

/-! ### The whole construction -/

theorem eraseData_sub (d : D) (all : List (Attaches D)) (x : Attaches D) (h : x ∈ K.eraseData d all) : x ∈ all :=
  List.mem_of_mem_eraseP h

theorem Ctx.buildAll (h : Ctx K H Ao Ai A grp P R I) (s : List (Attaches D) × List (Attaches D) × List (Attaches D))
    (hs : GoodThree K Ao Ai A grp s) (b : Built D) (hb : GoodBuilt P R I b) : GoodBuilt P R I (K.buildAll H s b) := by
  unfold Kind.buildAll
  simp only
  have h1 : (fun r : Built D × List (Attaches D) => GoodBuilt P R I r.1 ∧ ∀ x ∈ r.2, GoodEntry K A grp x)
      (s.2.1.foldl (fun r o => s.1.foldl (fun r i => K.buildEntry H o i r) r) (b, s.2.2)) := by
    refine foldl_inv (fun r : Built D × List (Attaches D) => GoodBuilt P R I r.1 ∧ ∀ x ∈ r.2, GoodEntry K A grp x)
      _ _ (fun r o ho hr => ?_) _ ⟨hb, hs.2.2⟩
    refine foldl_inv (fun r : Built D × List (Attaches D) => GoodBuilt P R I r.1 ∧ ∀ x ∈ r.2, GoodEntry K A grp x)
      _ _ (fun r i hi hr => ?_) _ hr
    refine ⟨h.buildEntry o i (hs.2.1 o ho) (hs.1 i hi) r hr.1, ?_⟩
    intro x hx
    unfold Kind.buildEntry at hx
    split at hx
    · exact hr.2 x (eraseData_sub _ _ _ hx)
    · exact hr.2 x hx
  refine foldl_inv (GoodBuilt P R I) _ _ (fun b x hx hb => ?_) _ h1.1
  refine foldl_inv (GoodBuilt P R I) _ _ (fun b a ha hb => ?_) _ hb
  exact h.addRemaining a ((h1.2 x hx).attaches a ha).1 b hb

theorem Ctx.build (h : Ctx K H Ao Ai A grp P R I) (nodes : List Nat) (hat : Attached K H nodes Ao Ai)
    (h0 : I Cache.empty) : GoodBuilt P R I (K.build H nodes) := by
  unfold Kind.build
  refine h.buildAll _ (h.collect nodes hat) _ ⟨⟨by simp, List.Pairwise.nil⟩, ?_, ?_, h0⟩
  · intro e he
    obtain ⟨n, -, rfl⟩ := List.mem_map.1 he
    exact ⟨by simp, List.Pairwise.nil⟩
  · intro e he
    obtain ⟨n, -, rfl⟩ := List.mem_map.1 he
    exact ⟨by simp, List.Pairwise.nil⟩

/-! ### Transitions are never removed -/

theorem addDependency_sub (o i : Attachment) (b : Built D) : ∀ x ∈ b.all, x ∈ (K.addDependency H o i b).all := by
  intro x hx
  unfold Kind.addDependency
  simp only
  split
  · exact insertTransition_sub _ _ _ _ _ _ (insertTransition_sub _ _ _ _ _ _ hx)
  · exact insertTransition_sub _ _ _ _ _ _ hx

theorem buildPair_sub (o i : Attachment) (b : Built D) : ∀ x ∈ b.all, x ∈ (K.buildPair H o i b).all := by
  intro x hx
  unfold Kind.buildPair
  simp only
  split
  · exact addDependency_sub _ _ _ x hx
  · exact hx

theorem buildEntry_sub (o i : Attaches D) (s : Built D × List (Attaches D)) :
    ∀ x ∈ s.1.all, x ∈ (K.buildEntry H o i s).1.all := by
  intro x hx
  unfold Kind.buildEntry
  split
  · exact foldl_inv (fun b : Built D => x ∈ b.all) _ _ (fun b _ _ hb =>
      foldl_inv (fun b : Built D => x ∈ b.all) _ _ (fun b _ _ hb => buildPair_sub _ _ b x hb) _ hb) _ hx
  · exact hx

theorem addRemaining_sub (a : Attachment) (b : Built D) : ∀ x ∈ b.all, x ∈ (K.addRemaining H a b).all := by
  intro x hx
  unfold Kind.addRemaining
  simp only
  split
  · exact hx
  · exact insertTransition_sub _ _ _ _ _ _ hx

/-- The dependency of `i` on `o` is recorded. -/
def Recorded (K : Kind D) (o i : Attachment) (ts : List (Trans D)) : Prop :=
  (∃ x ∈ ts, x = ⟨K.getInput o i, o, i⟩ ∨ K.transEq x ⟨K.getInput o i, o, i⟩ = true)
  ∧ (¬ K.agree (K.get o) (K.get i) = true →
      ∃ x ∈ ts, x = ⟨K.getOutput o i, o, i⟩ ∨ K.transEq x ⟨K.getOutput o i, o, i⟩ = true)

theorem Recorded.mono {o i : Attachment} {ts ts' : List (Trans D)} (h : Recorded K o i ts) (hs : ∀ x ∈ ts, x ∈ ts') :
    Recorded K o i ts' := by
  obtain ⟨⟨x, hx, h1⟩, h2⟩ := h
  refine ⟨⟨x, hs x hx, h1⟩, fun hn => ?_⟩
  obtain ⟨y, hy, h3⟩ := h2 hn
  exact ⟨y, hs y hy, h3⟩

theorem addDependency_recorded (o i : Attachment) (b : Built D) : Recorded K o i (K.addDependency H o i b).all := by
  unfold Kind.addDependency
  simp only
  split
  · obtain ⟨x, hx, h⟩ := insertTransition_has K H ⟨K.getInput o i, o, i⟩ b.all b.cache
    exact ⟨⟨x, insertTransition_sub _ _ _ _ _ _ hx, h⟩, fun _ => insertTransition_has _ _ _ _ _⟩
  · rename_i hn
    exact ⟨insertTransition_has _ _ _ _ _, fun hc => absurd (by simpa using hc) hn⟩

/-- Every pair of an output and an input attachment held by overlapping entries whose passes depend on each other is
recorded. -/
theorem Ctx.build_recorded (h : Ctx K H Ao Ai A grp P R I) (nodes : List Nat) (hat : Attached K H nodes Ao Ai)
    (h0 : I Cache.empty) (o i : Attachment) (od id : D) (ho : Held (K.collect H nodes).2.1 od o)
    (hi : Held (K.collect H nodes).1 id i) (hov : K.overlap id od = true)
    (hdep : ∀ c, I c → (K.dependsOn H i.pass o.pass (K.getOutput i o) c).1 = true) :
    Recorded K o i (K.build H nodes).all := by
  have hthree := h.collect nodes hat
  unfold Kind.build Kind.buildAll
  simp only
  obtain ⟨eo, heo, rfl, hoa⟩ := ho
  obtain ⟨ei, hei, rfl, hia⟩ := hi
  generalize hb0 : (⟨nodes.map fun n => (n, []), nodes.map fun n => (n, []), [], Cache.empty⟩ : Built D) = b0
  have hgood0 : GoodBuilt P R I b0 := by
    subst hb0
    refine ⟨⟨by simp, List.Pairwise.nil⟩, ?_, ?_, h0⟩
    · intro e he
      obtain ⟨n, -, rfl⟩ := List.mem_map.1 he
      exact ⟨by simp, List.Pairwise.nil⟩
    · intro e he
      obtain ⟨n, -, rfl⟩ := List.mem_map.1 he
      exact ⟨by simp, List.Pairwise.nil⟩
  have step1 : ∀ r : Built D × List (Attaches D), ∀ x ∈ (K.collect H nodes).2.1, GoodBuilt P R I r.1 →
      GoodBuilt P R I ((K.collect H nodes).1.foldl (fun r i => K.buildEntry H x i r) r).1 := by
    intro r x hx hr
    exact foldl_inv (fun r : Built D × List (Attaches D) => GoodBuilt P R I r.1) _ _
      (fun r y hy hr => h.buildEntry x y (hthree.2.1 x hx) (hthree.1 y hy) r hr) _ hr
  have main : Recorded K o i ((K.collect H nodes).2.1.foldl
      (fun r o => (K.collect H nodes).1.foldl (fun r i => K.buildEntry H o i r) r) (b0, (K.collect H nodes).2.2)).1.all := by
    refine foldl_reach (fun r : Built D × List (Attaches D) => GoodBuilt P R I r.1)
      (fun r => Recorded K o i r.1.all) _ _ eo heo (fun r x hx hr => step1 r x hx hr) ?_ ?_ _ hgood0
    · intro r x hx _ hrec
      exact foldl_inv (fun r : Built D × List (Attaches D) => Recorded K o i r.1.all) _ _
        (fun r y _ hr => hr.mono (buildEntry_sub _ _ r)) _ hrec
    · intro r hr
      refine foldl_reach (fun r : Built D × List (Attaches D) => GoodBuilt P R I r.1)
        (fun r => Recorded K o i r.1.all) _ _ ei hei
        (fun r y hy hr => h.buildEntry eo y (hthree.2.1 eo heo) (hthree.1 y hy) r hr)
        (fun r y _ _ hrec => hrec.mono (buildEntry_sub _ _ r)) ?_ _ hr
      intro r hr
      unfold Kind.buildEntry
      rw [if_pos hov]
      have hg := h.overlap _ _ hov
      have pairGood : ∀ oa ∈ eo.attaches, ∀ ia ∈ ei.attaches, ∀ b, GoodBuilt P R I b →
          GoodBuilt P R I (K.buildPair H oa ia b) := by
        intro oa hoa ia hia b hb
        obtain ⟨q1, q2⟩ := (hthree.2.1 eo heo).attaches oa hoa
        obtain ⟨q3, q4⟩ := (hthree.1 ei hei).attaches ia hia
        exact h.buildPair oa ia q1 q3 (by rw [q2, q4, hg]) b hb
      refine foldl_reach (GoodBuilt P R I) (fun b => Recorded K o i b.all) _ _ o hoa ?_ ?_ ?_ _ hr
      · intro b oa hoa hb
        exact foldl_inv (GoodBuilt P R I) _ _ (fun b ia hia hb => pairGood oa hoa ia hia b hb) _ hb
      · intro b oa _ _ hrec
        exact foldl_inv (fun b : Built D => Recorded K o i b.all) _ _ (fun b ia _ hb => hb.mono (buildPair_sub _ _ b))
          _ hrec
      · intro b hb
        refine foldl_reach (GoodBuilt P R I) (fun b => Recorded K o i b.all) _ _ i hia
          (fun b ia hia hb => pairGood o hoa ia hia b hb) (fun b ia _ _ hrec => hrec.mono (buildPair_sub _ _ b)) ?_ _ hb
        intro b hb
        unfold Kind.buildPair
        simp only
        rw [if_pos (hdep _ hb.cache)]
        exact addDependency_recorded _ _ _
  exact foldl_inv (fun b : Built D => Recorded K o i b.all) _ _ (fun b x _ hb =>
    foldl_inv (fun b : Built D => Recorded K o i b.all) _ _ (fun b a _ hb => hb.mono (addRemaining_sub _ b)) _ hb) _ main

end

/-! ### The graph -/

/-- The two sides of the edges agree, successors are listed once. -/
structure GraphOk (g : Graph) : Prop where
  agree : ∀ a b, a ∈ (g.prev b).map (·.1) ↔ b ∈ g.next a
  once : ∀ a, (g.next a).Nodup

theorem keys_updatePrev (p : Nat) (f : AttTrans → AttTrans) : ∀ (xs : List (Nat × AttTrans)) (a : Nat),
    a ∈ (updatePrev p f xs).map (·.1) ↔ a = p ∨ a ∈ xs.map (·.1) := by
  intro xs
  induction xs with
  | nil => intro a; simp [updatePrev]
  | cons x xs ih =>
    intro a
    obtain ⟨q, t⟩ := x
    unfold updatePrev
    split
    · rename_i h
      subst h
      simp
    · simp only [List.map_cons, List.mem_cons, ih]
      constructor
      · rintro (h | h | h)
        · exact .inr (.inl h)
        · exact .inl h
        · exact .inr (.inr h)
      · rintro (h | h | h)
        · exact .inr (.inl h)
        · exact .inl h
        · exact .inr (.inr h)

theorem mem_attach (sources : View → List View) (g : Graph) (a b x y : Nat) (t : AttTrans) :
    y ∈ (g.attach sources a b t).next x ↔ y ∈ g.next x ∨ (x = a ∧ y = b) := by
  unfold Graph.attach
  simp only
  by_cases hx : x = a
  · subst hx
    rw [if_pos rfl]
    split
    · rename_i hb
      constructor
      · exact .inl
      · rintro (h | ⟨-, rfl⟩)
        · exact h
        · exact hb
    · simp
  · rw [if_neg hx]
    simp [hx]

theorem attach_ok (sources : View → List View) (g : Graph) (a b : Nat) (t : AttTrans) (h : GraphOk g) :
    GraphOk (g.attach sources a b t) := by
  constructor
  · intro x y
    rw [mem_attach]
    unfold Graph.attach
    simp only
    by_cases hy : y = b
    · subst hy
      rw [if_pos rfl, keys_updatePrev, h.agree]
      constructor
      · rintro (rfl | h)
        · exact .inr ⟨rfl, rfl⟩
        · exact .inl h
      · rintro (h | ⟨rfl, -⟩)
        · exact .inr h
        · exact .inl rfl
    · rw [if_neg hy, h.agree]
      simp [hy]
  · intro x
    unfold Graph.attach
    simp only
    split
    · split
      · exact h.once a
      · rename_i hb
        rw [List.nodup_append]
        refine ⟨h.once a, by simp, ?_⟩
        intro y hy z hz
        simp only [List.mem_singleton] at hz
        subst hz
        rintro rfl
        exact hb hy
    · exact h.once x

theorem empty_ok : GraphOk Graph.empty := ⟨fun _ _ => by simp [Graph.empty], fun _ => by simp [Graph.empty]⟩

/-- What the edges made from a list of transitions are: `Yes t` says that the reader of `t` depends on its writer. -/
theorem buildEdges_spec (K : Kind D) (sources : View → List View) (H : Heap) (wrap : Trans D → AttTrans)
    (P : Trans D → Prop) (I : Cache → Prop) (Yes : Trans D → Prop)
    (hI : ∀ t c, P t → t.input.pass ≠ 0 → t.output.pass ≠ 0 → I c →
      I (K.dependsOn H t.input.pass t.output.pass t.data c).2
      ∧ ((K.dependsOn H t.input.pass t.output.pass t.data c).1 = true → Yes t)) :
    ∀ (ts : List (Trans D)) (s : Graph × Cache), (∀ t ∈ ts, P t) → I s.2 → GraphOk s.1 →
    GraphOk (K.buildEdges sources H wrap ts s).1
    ∧ (∀ a b, b ∈ s.1.next a → b ∈ (K.buildEdges sources H wrap ts s).1.next a)
    ∧ (∀ a b, b ∈ (K.buildEdges sources H wrap ts s).1.next a → b ∈ s.1.next a ∨
        ∃ t ∈ ts, t.output.pass = a ∧ t.input.pass = b ∧ a ≠ 0 ∧ b ≠ 0 ∧ Yes t) := by
  intro ts
  induction ts with
  | nil => intro s _ _ hg; exact ⟨hg, fun _ _ h => h, fun _ _ h => .inl h⟩
  | cons t ts ih =>
    intro s hP hIs hg
    unfold Kind.buildEdges
    rw [List.foldl_cons]
    have ih := fun s h1 h2 => ih s (fun x hx => hP x (by simp [hx])) h1 h2
    unfold Kind.buildEdges at ih
    by_cases hp : t.input.pass ≠ 0 ∧ t.output.pass ≠ 0
    · rw [if_pos hp]
      obtain ⟨h1, h2⟩ := hI t s.2 (hP t (by simp)) hp.1 hp.2 hIs
      simp only
      by_cases ha : (K.dependsOn H t.input.pass t.output.pass t.data s.2).1 = true
      · simp only [if_pos ha]
        obtain ⟨i1, i2, i3⟩ := ih (s.1.attach sources t.output.pass t.input.pass (wrap t),
          (K.dependsOn H t.input.pass t.output.pass t.data s.2).2) h1 (attach_ok _ _ _ _ _ hg)
        refine ⟨i1, fun a b h => i2 a b ((mem_attach _ _ _ _ _ _ _).2 (.inl h)), ?_⟩
        intro a b h
        rcases i3 a b h with h | ⟨x, hx, h⟩
        · rcases (mem_attach _ _ _ _ _ _ _).1 h with h | ⟨rfl, rfl⟩
          · exact .inl h
          · exact .inr ⟨t, by simp, rfl, rfl, hp.2, hp.1, h2 ha⟩
        · exact .inr ⟨x, by simp [hx], h⟩
      · simp only [if_neg ha]
        obtain ⟨i1, i2, i3⟩ := ih (s.1, (K.dependsOn H t.input.pass t.output.pass t.data s.2).2) h1 hg
        refine ⟨i1, i2, ?_⟩
        intro a b h
        rcases i3 a b h with h | ⟨x, hx, h⟩
        · exact .inl h
        · exact .inr ⟨x, by simp [hx], h⟩
    · rw [if_neg hp]
      obtain ⟨i1, i2, i3⟩ := ih s hIs hg
      refine ⟨i1, i2, ?_⟩
      intro a b h
      rcases i3 a b h with h | ⟨x, hx, h⟩
      · exact .inl h
      · exact .inr ⟨x, by simp [hx], h⟩

/-- A transition whose reader always is found to depend on its writer gives an edge. -/
theorem buildEdges_complete (K : Kind D) (sources : View → List View) (H : Heap) (wrap : Trans D → AttTrans)
    (P : Trans D → Prop) (I : Cache → Prop)
    (hI : ∀ t c, P t → t.input.pass ≠ 0 → t.output.pass ≠ 0 → I c →
      I (K.dependsOn H t.input.pass t.output.pass t.data c).2)
    (t : Trans D) (h1 : t.input.pass ≠ 0) (h2 : t.output.pass ≠ 0)
    (hyes : ∀ c, I c → (K.dependsOn H t.input.pass t.output.pass t.data c).1 = true)
    (ts : List (Trans D)) (ht : t ∈ ts) (s : Graph × Cache) (hP : ∀ t ∈ ts, P t) (hs : I s.2) :
    t.input.pass ∈ (K.buildEdges sources H wrap ts s).1.next t.output.pass := by
  refine foldl_reach (fun s : Graph × Cache => I s.2) (fun s => t.input.pass ∈ s.1.next t.output.pass) _ ts t ht
    ?_ ?_ ?_ s hs
  · intro s x hx hs
    split
    · rename_i hp; exact hI x s.2 (hP x hx) hp.1 hp.2 hs
    · exact hs
  · intro s x hx _ hm
    split
    · simp only
      split
      · exact (mem_attach _ _ _ _ _ _ _).2 (.inl hm)
      · exact hm
    · exact hm
  · intro s hs
    rw [if_pos ⟨h1, h2⟩]
    simp only [if_pos (hyes s.2 hs)]
    exact (mem_attach _ _ _ _ _ _ _).2 (.inr ⟨rfl, rfl⟩)

/-- Attaching the nodes without predecessor to the root. -/
theorem attachRoot_spec (sources : View → List View) (nodes : List Nat) (g0 : Graph) (h0 : GraphOk g0)
    (hroot : g0.next 0 = []) :
    let g := nodes.foldl (fun g n => if (g.prev n).isEmpty then g.attach sources 0 n {} else g) g0
    GraphOk g ∧ (∀ a b, a ≠ 0 → (b ∈ g.next a ↔ b ∈ g0.next a))
    ∧ (∀ b, b ∈ g.next 0 ↔ b ∈ nodes ∧ ∀ a, b ∉ g0.next a) := by
  let f : Graph → Nat → Graph := fun g n => if (g.prev n).isEmpty then g.attach sources 0 n {} else g
  have hf : ∀ g n, f g n = if (g.prev n).isEmpty then g.attach sources 0 n {} else g := fun _ _ => rfl
  let Q : Graph → Prop := fun g => GraphOk g ∧ (∀ a b, a ≠ 0 → (b ∈ g.next a ↔ b ∈ g0.next a))
    ∧ (∀ b, b ∈ g.next 0 → b ∈ nodes ∧ ∀ a, b ∉ g0.next a)
  have hempty : ∀ g, GraphOk g → ∀ n, (g.prev n).isEmpty = true ↔ ∀ a, n ∉ g.next a := by
    intro g hg n
    constructor
    · intro he a ha
      rw [List.isEmpty_iff] at he
      have := (hg.agree a n).2 ha
      rw [he] at this
      simp at this
    · intro hn
      rw [List.isEmpty_iff]
      cases hp : g.prev n with
      | nil => rfl
      | cons x xs =>
        exfalso
        exact hn x.1 ((hg.agree x.1 n).1 (by rw [hp]; simp))
  have step : ∀ g n, n ∈ nodes → Q g → Q (f g n) := by
    rintro g n hn ⟨q1, q2, q3⟩
    rw [hf]
    split
    · rename_i he
      have hno := (hempty g q1 n).1 he
      refine ⟨attach_ok _ _ _ _ _ q1, ?_, ?_⟩
      · intro a b ha
        rw [mem_attach, q2 a b ha]
        simp [ha]
      · intro b hb
        rcases (mem_attach _ _ _ _ _ _ _).1 hb with hb | ⟨-, rfl⟩
        · exact q3 b hb
        · refine ⟨hn, fun a ha => ?_⟩
          by_cases h : a = 0
          · subst h; rw [hroot] at ha; simp at ha
          · exact hno a ((q2 a b h).2 ha)
    · exact ⟨q1, q2, q3⟩
  have hQ0 : Q g0 := ⟨h0, fun _ _ _ => Iff.rfl, fun b hb => by rw [hroot] at hb; simp at hb⟩
  have hend : Q (nodes.foldl f g0) := foldl_inv Q f nodes step g0 hQ0
  refine ⟨hend.1, hend.2.1, fun b => ⟨hend.2.2 b, ?_⟩⟩
  rintro ⟨hb, hno⟩
  refine foldl_reach Q (fun g => b ∈ g.next 0) f nodes b hb step ?_ ?_ g0 hQ0
  · intro g n _ _ hm
    rw [hf]
    split
    · exact (mem_attach _ _ _ _ _ _ _).2 (.inl hm)
    · exact hm
  · intro g hg
    rw [hf]
    split
    · exact (mem_attach _ _ _ _ _ _ _).2 (.inr ⟨rfl, rfl⟩)
    · rename_i he
      apply Classical.byContradiction
      intro hcon
      exact he ((hempty g hg.1 b).2 fun a ha => by
        by_cases h : a = 0
        · subst h; exact hcon ha
        · exact hno a ((hg.2.1 a b h).1 ha))

end Verif.Deps
