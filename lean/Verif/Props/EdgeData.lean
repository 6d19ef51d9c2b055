import Verif.Props.GraphBuild
import Verif.Props.Reported
/-!
C83: what the edges of the compiled graph carry (`GraphNode::getInputAttaches`).
-/
namespace Verif.Deps
open Verif.Att

variable {D : Type}

/-- `GraphNode::getInputAttaches`, GraphNode.cpp:91-96: what node `b` gets from its predecessor `a`. -/
def Graph.attaches (g : Graph) (a b : Nat) : AttTrans := ((g.prev b).lookup a).getD {}

/-- No transition is equal to an earlier one. -/
def Distinct (K : Kind D) (l : List (Trans D)) : Prop := l.Pairwise fun x y => K.transEq x y = false

def addNew (K : Kind D) (l : List (Trans D)) (t : Trans D) : List (Trans D) :=
  if l.any (fun x => K.transEq x t) then l else l ++ [t]

theorem addNew_distinct {K : Kind D} {l : List (Trans D)} (h : Distinct K l) (t : Trans D) : Distinct K (addNew K l t) := by
  unfold addNew
  split
  · exact h
  · rename_i hn
    unfold Distinct
    rw [List.pairwise_append]
    refine ⟨h, by simp, fun x hx y hy => ?_⟩
    rw [List.mem_singleton.1 hy]
    cases he : K.transEq x t with
    | false => rfl
    | true => exact absurd (List.any_eq_true.2 ⟨x, hx, he⟩) hn

theorem addNew_has (K : Kind D) (l : List (Trans D)) (t : Trans D) : Has K (addNew K l t) t := by
  unfold addNew
  split
  · rename_i h
    obtain ⟨x, hx, he⟩ := List.any_eq_true.1 h
    exact ⟨x, hx, .inr he⟩
  · exact ⟨t, by simp, .inl rfl⟩

theorem addNew_sub (K : Kind D) (l : List (Trans D)) (t x : Trans D) (h : x ∈ addNew K l t) : x ∈ l ∨ x = t := by
  unfold addNew at h
  split at h
  · exact .inl h
  · simpa using h

theorem addNew_keeps (K : Kind D) (l : List (Trans D)) (t x : Trans D) (h : x ∈ l) : x ∈ addNew K l t := by
  unfold addNew
  split
  · exact h
  · simp [h]

theorem mergeIdentical_distinct {K : Kind D} {l : List (Trans D)} (h : Distinct K l) : K.mergeIdentical l = l := by
  have gen : ∀ (rest pre : List (Trans D)), Distinct K (pre ++ rest) →
      rest.foldl (fun r t => if r.any (fun x => K.transEq x t) then r else r ++ [t]) pre = pre ++ rest := by
    intro rest
    induction rest with
    | nil => intro pre _; simp
    | cons t rest ih =>
      intro pre hp
      rw [List.foldl_cons, if_neg]
      · rw [ih (pre ++ [t]) (by simpa using hp)]; simp
      · intro hc
        obtain ⟨x, hx, he⟩ := List.any_eq_true.1 hc
        have := (List.pairwise_append.1 hp).2.2 x hx t (by simp)
        rw [this] at he; cases he
  exact gen l [] (by simpa using h)

/-- Both lists of an edge. -/
def AttDistinct (sources : View → List View) (m : AttTrans) : Prop := Distinct (viewKind sources) m.views ∧ Distinct bufferKind m.buffers

theorem appendNew_one (K : Kind D) (l : List (Trans D)) (t : Trans D) : (K.appendNew l [t]).1 = addNew K l t := by
  simp only [Kind.appendNew, addNew, List.foldl_cons, List.foldl_nil]
  split <;> rfl

theorem addAttaches_views {sources : View → List View} {m : AttTrans} (h : AttDistinct sources m) (t : Trans View) :
    addAttaches sources m { views := [t] } = ⟨addNew (viewKind sources) m.views t, m.buffers⟩ := by
  unfold addAttaches
  simp only [appendNew_one, show (bufferKind.appendNew m.buffers []) = (m.buffers, false) from rfl]
  split
  · rw [mergeIdentical_distinct (addNew_distinct h.1 t), mergeIdentical_distinct h.2]
  · rfl

theorem addAttaches_buffers {sources : View → List View} {m : AttTrans} (h : AttDistinct sources m) (t : Trans (List Nat)) :
    addAttaches sources m { buffers := [t] } = ⟨m.views, addNew bufferKind m.buffers t⟩ := by
  unfold addAttaches
  simp only [appendNew_one, show ((viewKind sources).appendNew m.views []) = (m.views, false) from rfl]
  split
  · rw [mergeIdentical_distinct (addNew_distinct h.2 t), mergeIdentical_distinct h.1]
  · rfl

theorem addAttaches_none (sources : View → List View) (m : AttTrans) : addAttaches sources m {} = m := by
  simp [addAttaches, Kind.appendNew]

theorem lookup_updatePrev (p : Nat) (f : AttTrans → AttTrans) (xs : List (Nat × AttTrans)) (q : Nat) :
    ((updatePrev p f xs).lookup q).getD {} = if q = p then f ((xs.lookup p).getD {}) else (xs.lookup q).getD {} := by
  induction xs with
  | nil =>
    by_cases hq : q = p
    · simp [updatePrev, hq]
    · have hq' : (q == p) = false := by simpa using hq
      simp only [updatePrev, List.lookup_cons, hq', List.lookup_nil, Option.getD_none, if_neg hq]
  | cons x xs ih =>
    obtain ⟨k, t⟩ := x
    unfold updatePrev
    by_cases hk : k = p
    · rw [if_pos hk]; subst hk
      by_cases hq : q = k
      · simp [hq]
      · have hq' : (q == k) = false := by simpa using hq
        simp only [List.lookup_cons, hq', if_neg hq]
    · rw [if_neg hk]
      by_cases hq : q = k
      · subst hq; simp [hk]
      · have hq' : (q == k) = false := by simpa using hq
        have hp' : (p == k) = false := by simpa using Ne.symm hk
        simp only [List.lookup_cons, hq', hp']
        exact ih

theorem attach_attaches (sources : View → List View) (g : Graph) (p q : Nat) (t : AttTrans) (a b : Nat) :
    (g.attach sources p q t).attaches a b = if a = p ∧ b = q then addAttaches sources (g.attaches p q) t else g.attaches a b := by
  unfold Graph.attach Graph.attaches
  simp only
  by_cases hb : b = q
  · subst hb
    rw [if_pos rfl, lookup_updatePrev]
    by_cases ha : a = p <;> simp [ha]
  · simp [hb]

/-- The edges made from a list of transitions of one kind (`sel`), the other (`keep`) being left alone. -/
theorem buildEdges_attaches {E : Type} (K : Kind D) (sources : View → List View) (H : Heap) (wrap : Trans D → AttTrans)
    (sel : AttTrans → List (Trans D)) (keep : AttTrans → List (Trans E))
    (hw : ∀ m t, AttDistinct sources m → AttDistinct sources (addAttaches sources m (wrap t)) ∧
      sel (addAttaches sources m (wrap t)) = addNew K (sel m) t ∧ keep (addAttaches sources m (wrap t)) = keep m)
    (P : Trans D → Prop) (I : Cache → Prop) (Yes Sure : Trans D → Prop)
    (hI : ∀ t c, P t → t.input.pass ≠ 0 → t.output.pass ≠ 0 → I c →
      I (K.dependsOn H t.input.pass t.output.pass t.data c).2
      ∧ ((K.dependsOn H t.input.pass t.output.pass t.data c).1 = true → Yes t)
      ∧ (Sure t → (K.dependsOn H t.input.pass t.output.pass t.data c).1 = true)) :
    ∀ (ts : List (Trans D)) (s : Graph × Cache), (∀ t ∈ ts, P t) → I s.2 → (∀ a b, AttDistinct sources (s.1.attaches a b)) →
    (∀ a b, AttDistinct sources ((K.buildEdges sources H wrap ts s).1.attaches a b))
    ∧ (∀ a b, keep ((K.buildEdges sources H wrap ts s).1.attaches a b) = keep (s.1.attaches a b))
    ∧ (∀ a b t, t ∈ sel ((K.buildEdges sources H wrap ts s).1.attaches a b) → t ∈ sel (s.1.attaches a b) ∨
        (t ∈ ts ∧ t.output.pass = a ∧ t.input.pass = b ∧ a ≠ 0 ∧ b ≠ 0 ∧ Yes t))
    ∧ (∀ a b t, t ∈ sel (s.1.attaches a b) → t ∈ sel ((K.buildEdges sources H wrap ts s).1.attaches a b))
    ∧ (∀ t ∈ ts, t.input.pass ≠ 0 → t.output.pass ≠ 0 → Sure t →
        Has K (sel ((K.buildEdges sources H wrap ts s).1.attaches t.output.pass t.input.pass)) t)
    ∧ (∀ a b, b ∈ (K.buildEdges sources H wrap ts s).1.next a → b ∈ s.1.next a ∨
        sel ((K.buildEdges sources H wrap ts s).1.attaches a b) ≠ []) := by
  intro ts
  induction ts with
  | nil => intro s _ _ hd; exact ⟨hd, fun _ _ => rfl, fun _ _ _ h => .inl h, fun _ _ _ h => h, by simp, fun _ _ h => .inl h⟩
  | cons t ts ih =>
    intro s hP hIs hd
    unfold Kind.buildEdges
    rw [List.foldl_cons]
    have ih := fun s h1 h2 => ih s (fun x hx => hP x (by simp [hx])) h1 h2
    unfold Kind.buildEdges at ih
    by_cases hp : t.input.pass ≠ 0 ∧ t.output.pass ≠ 0
    · rw [if_pos hp]
      obtain ⟨h1, h2, h3⟩ := hI t s.2 (hP t (by simp)) hp.1 hp.2 hIs
      simp only
      by_cases ha : (K.dependsOn H t.input.pass t.output.pass t.data s.2).1 = true
      · simp only [if_pos ha]
        obtain ⟨w1, w2, w3⟩ := hw (s.1.attaches t.output.pass t.input.pass) t (hd _ _)
        have hat := attach_attaches sources s.1 t.output.pass t.input.pass (wrap t)
        obtain ⟨i1, i2, i3, i4, i5, i6⟩ := ih (s.1.attach sources t.output.pass t.input.pass (wrap t),
          (K.dependsOn H t.input.pass t.output.pass t.data s.2).2) h1 (fun a b => by
            rw [hat]; split
            · exact w1
            · exact hd a b)
        simp only [hat] at i2 i3 i4
        refine ⟨i1, fun a b => ?_, fun a b x hx => ?_, fun a b x hx => ?_, fun x hx n1 n2 hs => ?_, fun a b hb => ?_⟩
        · rw [i2]
          split
          · rename_i e; rw [e.1, e.2, w3]
          · rfl
        · rcases i3 a b x hx with h | ⟨h, g⟩
          · split at h
            · rename_i e
              rw [w2] at h
              rcases addNew_sub _ _ _ _ h with h | h
              · exact .inl (by rw [e.1, e.2]; exact h)
              · exact .inr ⟨by simp [h], by rw [h, e.1], by rw [h, e.2], by rw [e.1]; exact hp.2, by rw [e.2]; exact hp.1, h ▸ h2 ha⟩
            · exact .inl h
          · exact .inr ⟨by simp [h], g⟩
        · refine i4 a b x ?_
          split
          · rename_i e
            rw [w2]; rw [e.1, e.2] at hx; exact addNew_keeps _ _ _ _ hx
          · exact hx
        · rcases List.mem_cons.1 hx with rfl | hx
          · refine (addNew_has K (sel (s.1.attaches x.output.pass x.input.pass)) x).mono (fun y hy => i4 _ _ y ?_)
            rw [if_pos ⟨rfl, rfl⟩, w2]; exact hy
          · exact i5 x hx n1 n2 hs
        · rcases i6 a b hb with h | h
          · rcases (mem_attach _ _ _ _ _ _ _).1 h with h | ⟨rfl, rfl⟩
            · exact .inl h
            · right
              obtain ⟨y, hy, -⟩ := addNew_has K (sel (s.1.attaches t.output.pass t.input.pass)) t
              refine List.ne_nil_of_mem (i4 _ _ y ?_)
              rw [if_pos ⟨rfl, rfl⟩, w2]; exact hy
          · exact .inr h
      · simp only [if_neg ha]
        obtain ⟨i1, i2, i3, i4, i5, i6⟩ := ih (s.1, (K.dependsOn H t.input.pass t.output.pass t.data s.2).2) h1 hd
        refine ⟨i1, i2, fun a b x hx => ?_, i4, fun x hx n1 n2 hs => ?_, i6⟩
        · rcases i3 a b x hx with h | ⟨h, g⟩
          · exact .inl h
          · exact .inr ⟨by simp [h], g⟩
        · rcases List.mem_cons.1 hx with rfl | hx
          · exact absurd (h3 hs) ha
          · exact i5 x hx n1 n2 hs
    · rw [if_neg hp]
      obtain ⟨i1, i2, i3, i4, i5, i6⟩ := ih s hIs hd
      refine ⟨i1, i2, fun a b x hx => ?_, i4, fun x hx n1 n2 hs => ?_, i6⟩
      · rcases i3 a b x hx with h | ⟨h, g⟩
        · exact .inl h
        · exact .inr ⟨by simp [h], g⟩
      · rcases List.mem_cons.1 hx with rfl | hx
        · exact absurd ⟨n1, n2⟩ hp
        · exact i5 x hx n1 n2 hs

theorem empty_attaches (a b : Nat) : Graph.empty.attaches a b = {} := rfl

/-- The edges of the compiled graph, for answers on views that are sound (`YesV`) and complete (`SureV`), and on buffers. -/
theorem compile_attaches (sources : View → List View) (H : Heap) (known : View → Prop) (h : WellFormed H known)
    (IV IB : Cache → Prop) (YesV SureV : Trans View → Prop) (YesB SureB : Trans (List Nat) → Prop) (hIV0 : IV Cache.empty)
    (hIB0 : IB Cache.empty)
    (hIV : ∀ a t v c, a ∈ H.univ → t ∈ H.univ → known v → IV c → IV ((viewKind sources).dependsOn H a t v c).2)
    (hYV : ∀ t c, ViewTrans H known t → t.input.pass ≠ 0 → t.output.pass ≠ 0 → IV c →
      (((viewKind sources).dependsOn H t.input.pass t.output.pass t.data c).1 = true → YesV t) ∧
      (SureV t → ((viewKind sources).dependsOn H t.input.pass t.output.pass t.data c).1 = true))
    (hIB : ∀ a t b c, a ∈ H.univ → t ∈ H.univ → UsedBuffer H b → IB c → IB (bufferKind.dependsOn H a t b c).2)
    (hYB : ∀ t c, BufferTrans H t → t.input.pass ≠ 0 → t.output.pass ≠ 0 → IB c →
      ((bufferKind.dependsOn H t.input.pass t.output.pass t.data c).1 = true → YesB t) ∧
      (SureB t → (bufferKind.dependsOn H t.input.pass t.output.pass t.data c).1 = true)) :
    let g := compileGraph sources H H.univ
    (∀ a b, AttDistinct sources (g.attaches a b))
    ∧ (∀ a b t, t ∈ (g.attaches a b).views → t ∈ ((viewKind sources).build H H.univ).all ∧ ViewTrans H known t ∧
        t.output.pass = a ∧ t.input.pass = b ∧ a ≠ 0 ∧ b ≠ 0 ∧ YesV t)
    ∧ (∀ a b t, t ∈ (g.attaches a b).buffers → t ∈ (bufferKind.build H H.univ).all ∧ BufferTrans H t ∧
        t.output.pass = a ∧ t.input.pass = b ∧ a ≠ 0 ∧ b ≠ 0 ∧ YesB t)
    ∧ (∀ t ∈ ((viewKind sources).build H H.univ).all, t.input.pass ≠ 0 → t.output.pass ≠ 0 → SureV t →
        Has (viewKind sources) (g.attaches t.output.pass t.input.pass).views t)
    ∧ (∀ t ∈ (bufferKind.build H H.univ).all, t.input.pass ≠ 0 → t.output.pass ≠ 0 → SureB t →
        Has bufferKind (g.attaches t.output.pass t.input.pass).buffers t)
    ∧ (∀ a b, a ≠ 0 → b ∈ g.next a → (g.attaches a b).views ≠ [] ∨ (g.attaches a b).buffers ≠ []) := by
  intro g
  have cv := view_ctx sources H known h (fun _ _ => False) (fun _ _ h => h) (fun _ _ _ _ h => h.elim) IV hIV
  have cb := buffer_ctx H (fun _ _ => False) (fun _ _ h => h) (fun _ _ h => h.elim) IB hIB
  have bv := cv.build H.univ (views_attached sources H known h) hIV0
  have bb := cb.build H.univ (buffers_attached H known h) hIB0
  have hwv : ∀ m t, AttDistinct sources m → AttDistinct sources (addAttaches sources m { views := [t] }) ∧
      (addAttaches sources m { views := [t] }).views = addNew (viewKind sources) m.views t ∧
      (addAttaches sources m { views := [t] }).buffers = m.buffers := by
    intro m t hm
    rw [addAttaches_views hm]
    exact ⟨⟨addNew_distinct hm.1 t, hm.2⟩, rfl, rfl⟩
  have hwb : ∀ m t, AttDistinct sources m → AttDistinct sources (addAttaches sources m { buffers := [t] }) ∧
      (addAttaches sources m { buffers := [t] }).buffers = addNew bufferKind m.buffers t ∧
      (addAttaches sources m { buffers := [t] }).views = m.views := by
    intro m t hm
    rw [addAttaches_buffers hm]
    exact ⟨⟨hm.1, addNew_distinct hm.2 t⟩, rfl, rfl⟩
  obtain ⟨v1, v2, v3, -, v5, v6⟩ := buildEdges_attaches (viewKind sources) sources H (fun t => { views := [t] }) AttTrans.views
    AttTrans.buffers hwv _ IV YesV SureV (fun t c ht h1 h2 hc => ⟨cv.cache t c ht h1 h2 hc, hYV t c ht h1 h2 hc⟩)
    ((viewKind sources).build H H.univ).all (Graph.empty, ((viewKind sources).build H H.univ).cache) bv.all.all bv.cache
    (fun a b => by simp [empty_attaches, AttDistinct, Distinct])
  obtain ⟨w1, w2, w3, -, w5, w6⟩ := buildEdges_attaches bufferKind sources H (fun t => { buffers := [t] }) AttTrans.buffers
    AttTrans.views hwb _ IB YesB SureB (fun t c ht h1 h2 hc => ⟨cb.cache t c ht h1 h2 hc, hYB t c ht h1 h2 hc⟩)
    (bufferKind.build H H.univ).all
    (((viewKind sources).buildEdges sources H (fun t => { views := [t] }) ((viewKind sources).build H H.univ).all
      (Graph.empty, ((viewKind sources).build H H.univ).cache)).1, (bufferKind.build H H.univ).cache) bb.all.all bb.cache v1
  generalize hg : (bufferKind.buildEdges sources H (fun t => { buffers := [t] }) (bufferKind.build H H.univ).all
    (((viewKind sources).buildEdges sources H (fun t => { views := [t] }) ((viewKind sources).build H H.univ).all
      (Graph.empty, ((viewKind sources).build H H.univ).cache)).1, (bufferKind.build H H.univ).cache)).1 = g1 at *
  simp only [empty_attaches, List.not_mem_nil, false_or] at v2 v3 w3
  have hdef : g = H.univ.foldl (fun g n => if (g.prev n).isEmpty then g.attach sources 0 n {} else g) g1 := by
    rw [← hg]; rfl
  have hroot : (∀ a b, g.attaches a b = g1.attaches a b) ∧ ∀ a b, a ≠ 0 → b ∈ g.next a → b ∈ g1.next a := by
    rw [hdef]
    refine foldl_inv (fun g : Graph => (∀ a b, g.attaches a b = g1.attaches a b) ∧ ∀ a b, a ≠ 0 → b ∈ g.next a → b ∈ g1.next a) _ _
      (fun g n _ hg => ?_) _ ⟨fun _ _ => rfl, fun _ _ _ h => h⟩
    split
    · refine ⟨fun a b => ?_, fun a b ha hb => ?_⟩
      · rw [attach_attaches, addAttaches_none]
        split
        · rename_i e; rw [e.1, e.2]; exact hg.1 0 n
        · exact hg.1 a b
      · rcases (mem_attach _ _ _ _ _ _ _).1 hb with h | ⟨h, -⟩
        · exact hg.2 a b ha h
        · exact absurd h ha
    · exact hg
  refine ⟨fun a b => by rw [hroot.1]; exact w1 a b, fun a b t ht => ?_, fun a b t ht => ?_, fun t ht h1 h2 hs => ?_,
    fun t ht h1 h2 hs => ?_, fun a b ha hb => ?_⟩
  · rw [hroot.1, w2] at ht
    have := v3 a b t ht
    exact ⟨this.1, bv.all.all t this.1, this.2⟩
  · rw [hroot.1] at ht
    rcases w3 a b t ht with h | h
    · rw [v2] at h; cases h
    · exact ⟨h.1, bb.all.all t h.1, h.2.1, h.2.2.1, h.2.2.2.1, h.2.2.2.2.1, h.2.2.2.2.2⟩
  · rw [hroot.1, w2]; exact v5 t ht h1 h2 hs
  · rw [hroot.1]; exact w5 t ht h1 h2 hs
  · rw [hroot.1]
    rcases w6 a b (hroot.2 a b ha hb) with h | h
    · rcases v6 a b h with h | h
      · simp [Graph.empty] at h
      · left; rw [w2]; exact h
    · exact .inr h

/-- C83: an edge between passes carries at least one transition; those it carries are reported transitions from an output attachment of the
first pass to an input attachment of the second, none of them twice; edges from the root carry none. -/
theorem edge_transitions (sources : View → List View) (H : Heap) (known : View → Prop) (h : WellFormed H known) (a b : Nat) :
    let e := (compileGraph sources H H.univ).attaches a b
    (∀ t ∈ e.views, t ∈ ((viewKind sources).build H H.univ).all ∧ a ≠ 0 ∧ t.output ∈ (H.pass a).images ∧ t.input ∈ (H.pass b).images ∧
      t.output.isOutput = true ∧ t.input.isInput = true ∧ (t.data = viewOf t.output ∨ t.data = viewOf t.input))
    ∧ (∀ t ∈ e.buffers, t ∈ (bufferKind.build H H.univ).all ∧ a ≠ 0 ∧ t.output ∈ (H.pass a).buffers ∧ t.input ∈ (H.pass b).buffers ∧
      t.output.isOutput = true ∧ t.input.isInput = true ∧ (t.data = t.output.buf.buffers ∨ t.data = t.input.buf.buffers))
    ∧ e.views.Pairwise (fun x y => (viewKind sources).transEq x y = false)
    ∧ e.buffers.Pairwise (fun x y => bufferKind.transEq x y = false)
    ∧ (a ≠ 0 → b ∈ (compileGraph sources H H.univ).next a → e.views ≠ [] ∨ e.buffers ≠ []) := by
  intro e
  obtain ⟨c1, c2, c3, -, -, c5⟩ := compile_attaches sources H known h (fun _ => True) (fun _ => True) (fun _ => True) (fun _ => False)
    (fun _ => True) (fun _ => False) trivial trivial
    (fun _ _ _ _ _ _ _ _ => trivial) (fun _ _ _ _ _ _ => ⟨fun _ => trivial, fun e => e.elim⟩)
    (fun _ _ _ _ _ _ _ _ => trivial) (fun _ _ _ _ _ _ => ⟨fun _ => trivial, fun e => e.elim⟩)
  refine ⟨fun t ht => ?_, fun t ht => ?_, (c1 a b).1, (c1 a b).2, c5 a b⟩
  · obtain ⟨h1, h2, rfl, rfl, h5, h6, -⟩ := c2 a b t ht
    obtain ⟨q1, q2, q3, -⟩ := h2.2 h6 h5
    exact ⟨h1, h5, q1.1.2, q2.1.2, q1.2, q2.2, q3⟩
  · obtain ⟨h1, h2, rfl, rfl, h5, h6, -⟩ := c3 a b t ht
    obtain ⟨q1, q2, -, q3⟩ := h2 h6 h5
    exact ⟨h1, h5, q1.1.2, q2.1.2, q1.2, q2.2, q3⟩

/-- C83, views (partial: views that are not merged; buffers below): of the reported transitions between two passes, an edge carries exactly those
(or equal ones) through whose view the second depends on the first. -/
theorem edge_view_transitions_partial (sources : View → List View) (H : Heap) (known : View → Prop)
    (h : WellFormed H known) (hp : PlainViews sources H known) (hcl : Closed H) (hac : Acyclic H) :
    (∀ a b, ∀ t ∈ ((compileGraph sources H H.univ).attaches a b).views, Via H (WritesView t.data) (ReadsView t.data) (H.pass a).id b)
    ∧ (∀ t ∈ ((viewKind sources).build H H.univ).all, t.output.pass ≠ 0 → t.input.pass ≠ 0 →
      Via H (WritesView t.data) (ReadsView t.data) (H.pass t.output.pass).id t.input.pass →
      ∃ x ∈ ((compileGraph sources H H.univ).attaches t.output.pass t.input.pass).views, x = t ∨ (viewKind sources).transEq x t = true) := by
  have iff : ∀ t c, ViewTrans H known t → t.input.pass ≠ 0 → t.output.pass ≠ 0 → ViewCacheExact sources H known c →
      (((viewKind sources).dependsOn H t.input.pass t.output.pass t.data c).1 = true ↔
        Via H (WritesView t.data) (ReadsView t.data) (H.pass t.output.pass).id t.input.pass) := by
    intro t c ht h1 h2 hc
    obtain ⟨q1, q2, -⟩ := ht.2 h1 h2
    rw [(viewCacheExact_step hcl hac hp _ _ _ q2.1.1 q1.1.1 ht.1 c hc).2]
    constructor
    · exact via_congr H hcl _ (fun x hx => viewInOutputs_iff hp x hx _ ht.1) (fun x hx => viewInInputs_iff hp x hx _ ht.1) _ q2.1.1
    · exact via_congr H hcl _ (fun x hx => (viewInOutputs_iff hp x hx _ ht.1).symm) (fun x hx => (viewInInputs_iff hp x hx _ ht.1).symm) _ q2.1.1
  obtain ⟨-, c2, -, c4, -⟩ := compile_attaches sources H known h (ViewCacheExact sources H known) (fun _ => True)
    (fun t => Via H (WritesView t.data) (ReadsView t.data) (H.pass t.output.pass).id t.input.pass)
    (fun t => Via H (WritesView t.data) (ReadsView t.data) (H.pass t.output.pass).id t.input.pass)
    (fun _ => True) (fun _ => False)
    (fun _ _ _ _ _ _ hx => by simp [Cache.empty] at hx) trivial
    (fun a t v c ha ht hv hc => (viewCacheExact_step hcl hac hp a t v ha ht hv c hc).1)
    (fun t c ht h1 h2 hc => ⟨(iff t c ht h1 h2 hc).1, (iff t c ht h1 h2 hc).2⟩)
    (fun _ _ _ _ _ _ _ _ => trivial) (fun _ _ _ _ _ _ => ⟨fun _ => trivial, fun e => e.elim⟩)
  refine ⟨fun a b t ht => ?_, fun t ht h1 h2 hv => c4 t ht h2 h1 hv⟩
  obtain ⟨-, -, rfl, rfl, -, -, hy⟩ := c2 a b t ht
  exact hy

/-- C83, buffers (partial: first handles that differ in their 32 low bits; what counts as writing a buffer is using it as storage buffer):
of the reported transitions between two passes, an edge carries exactly those (or equal ones) through whose buffer the second depends on
the first. -/
theorem edge_buffer_transitions_partial (sources : View → List View) (H : Heap) (known : View → Prop)
    (h : WellFormed H known) (hcl : Closed H) (hac : Acyclic H)
    (hlow : ∀ b c, UsedBuffer H b → UsedBuffer H c → firstBuffer b % 2 ^ 32 = firstBuffer c % 2 ^ 32 → b = c) :
    (∀ a b, ∀ t ∈ ((compileGraph sources H H.univ).attaches a b).buffers, Via H (StoresBuffer t.data) (StoresBuffer t.data) (H.pass a).id b)
    ∧ (∀ t ∈ (bufferKind.build H H.univ).all, t.output.pass ≠ 0 → t.input.pass ≠ 0 →
      Via H (StoresBuffer t.data) (StoresBuffer t.data) (H.pass t.output.pass).id t.input.pass →
      ∃ x ∈ ((compileGraph sources H H.univ).attaches t.output.pass t.input.pass).buffers, x = t ∨ bufferKind.transEq x t = true) := by
  have used : ∀ t : Trans (List Nat), BufferTrans H t → t.input.pass ≠ 0 → t.output.pass ≠ 0 → UsedBuffer H t.data := by
    intro t ht h1 h2
    obtain ⟨g1, g2, -, g3⟩ := ht h1 h2
    rcases g3 with e | e
    · exact ⟨_, g1.1, e.symm⟩
    · exact ⟨_, g2.1, e.symm⟩
  have iff : ∀ t c, BufferTrans H t → t.input.pass ≠ 0 → t.output.pass ≠ 0 → BufferCacheExact H (UsedBuffer H) c →
      ((bufferKind.dependsOn H t.input.pass t.output.pass t.data c).1 = true ↔
        Via H (StoresBuffer t.data) (StoresBuffer t.data) (H.pass t.output.pass).id t.input.pass) := by
    intro t c ht h1 h2 hc
    obtain ⟨q1, q2, -⟩ := ht h1 h2
    exact (bufferCacheExact_step hcl hac h.id32 hlow _ _ _ q2.1.1 q1.1.1 (used t ht h1 h2) c hc).2
  obtain ⟨-, -, c3, -, c5, -⟩ := compile_attaches sources H known h (fun _ => True) (BufferCacheExact H (UsedBuffer H)) (fun _ => True) (fun _ => False)
    (fun t => Via H (StoresBuffer t.data) (StoresBuffer t.data) (H.pass t.output.pass).id t.input.pass)
    (fun t => Via H (StoresBuffer t.data) (StoresBuffer t.data) (H.pass t.output.pass).id t.input.pass)
    trivial (fun _ _ _ _ _ _ hx => by simp [Cache.empty] at hx)
    (fun _ _ _ _ _ _ _ _ => trivial) (fun _ _ _ _ _ _ => ⟨fun _ => trivial, fun e => e.elim⟩)
    (fun a t b c ha ht hb hc => (bufferCacheExact_step hcl hac h.id32 hlow a t b ha ht hb c hc).1)
    (fun t c ht h1 h2 hc => ⟨(iff t c ht h1 h2 hc).1, (iff t c ht h1 h2 hc).2⟩)
  refine ⟨fun a b t ht => ?_, fun t ht h1 h2 hv => c5 t ht h2 h1 hv⟩
  obtain ⟨-, -, rfl, rfl, -, -, hy⟩ := c3 a b t ht
  exact hy

/-- Pass 1 fills storage buffer 7, pass 2 doesn't use it, pass 3 reads it (and depends on 2, that depends on 1). -/
def bufferChain : Heap := heapOf
  [([], [], [BufferAdder.outputStorage.attach 1 0 [7] 0 0 64]), ([1], [], []), ([2], [], [BufferAdder.inputStorage.attach 3 0 [7] 0 0 64])]

/-- The hypotheses of `edge_buffer_transitions_partial` are met, and its edge carries the transition. -/
theorem bufferChain_ok : WellFormed bufferChain (fun _ => False) ∧ Closed bufferChain ∧ Acyclic bufferChain
    ∧ (∀ b c, UsedBuffer bufferChain b → UsedBuffer bufferChain c → firstBuffer b % 2 ^ 32 = firstBuffer c % 2 ^ 32 → b = c)
    ∧ ((compileGraph noSources bufferChain bufferChain.univ).attaches 1 3).buffers.map (fun t => (t.data, t.output.pass, t.input.pass)) =
      [([7], 1, 3)] := by
  have hu : ∀ a ∈ bufferChain.univ, a = 1 ∨ a = 2 ∨ a = 3 := by decide
  refine ⟨⟨by decide, by decide, by decide, ?_, ?_, fun _ _ h => h.elim, fun _ h => h.elim⟩, by unfold Closed; decide, ⟨fun a => a, ?_⟩, ?_,
    by decide +kernel⟩
  · intro a ha x hx
    rcases hu a ha with rfl | rfl | rfl <;> cases hx
  · intro a ha x hx
    rcases hu a ha with rfl | rfl | rfl
    · have : x = BufferAdder.outputStorage.attach 1 0 [7] 0 0 64 := by simpa [bufferChain, heapOf] using hx
      subst this; rfl
    · cases hx
    · have : x = BufferAdder.inputStorage.attach 3 0 [7] 0 0 64 := by simpa [bufferChain, heapOf] using hx
      subst this; rfl
  · intro a d hd
    match a with
    | 0 => simp [bufferChain, heapOf] at hd
    | 1 => simp [bufferChain, heapOf] at hd
    | 2 => simp [bufferChain, heapOf] at hd; subst hd; decide
    | 3 => simp [bufferChain, heapOf] at hd; subst hd; decide
    | n + 4 => simp [bufferChain, heapOf] at hd
  · have : ∀ b, UsedBuffer bufferChain b → b = [7] := by
      rintro b ⟨x, ⟨h1, h2⟩, rfl⟩
      generalize x.pass = p at h1 h2
      rcases hu p h1 with rfl | rfl | rfl
      · have : x = BufferAdder.outputStorage.attach 1 0 [7] 0 0 64 := by simpa [bufferChain, heapOf] using h2
        subst this; rfl
      · cases h2
      · have : x = BufferAdder.inputStorage.attach 3 0 [7] 0 0 64 := by simpa [bufferChain, heapOf] using h2
        subst this; rfl
    intro b c hb hc _
    rw [this b hb, this c hc]

/-- The edge of the chain of Props/GraphBuild.lean carries one transition, of the view pass 1 writes and pass 3 reads. -/
example : ((compileGraph noSources chainHeap chainHeap.univ).attaches 1 3).views.map (fun t => (t.data, t.output.pass, t.input.pass)) =
    [(oView 1 0 1, 1, 3)] ∧ ((compileGraph noSources chainHeap chainHeap.univ).attaches 1 3).buffers.length = 0 := by decide +kernel

end Verif.Deps
