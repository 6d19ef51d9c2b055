import Verif.Lemmas.Lifetime
/-! C76: GPU objects of runnable graphs when the driver refuses creations. -/
namespace Verif.Life

/-! ### Everything is destroyed, once -/

/-- **C76**: whatever graphs are made, re-recorded and destroyed, in any order, whatever the driver refuses: nothing is
destroyed that doesn't exist (twice, or after the pool it came from). -/
theorem never_destroys_twice {w : World} (h : Reachable w) : w.st.drv.misuse = false := by
  obtain ⟨_, h⟩ := reachable_inv h
  exact h.inv.drv.ok

/-- What the mark means: it is set, for good, by destroying a handle that doesn't exist. -/
theorem misuse_meaning (d : Drv) (h : Nat) :
    ((d.destroy h).misuse = true ↔ d.misuse = true ∨ ∀ e ∈ d.live, e.1 ≠ h) ∧
    (∀ e, e ∈ (d.destroy h).live ↔ e ∈ d.live ∧ ((∃ x ∈ d.live, x.1 = h) → e.1 ≠ h ∧ e.2 ≠ .commandBuffer h)) := by
  unfold Drv.destroy
  split
  · rename_i hx
    rw [List.any_eq_true] at hx
    obtain ⟨x, hx, e⟩ := hx
    have e := beq_iff_eq.1 e
    refine ⟨⟨.inl, fun h' => h'.resolve_right fun hn => hn x hx e⟩, fun y => ?_⟩
    simp only [List.mem_filter, Bool.and_eq_true, bne_iff_ne]
    exact ⟨fun ⟨a, b⟩ => ⟨a, fun _ => b⟩, fun ⟨a, b⟩ => ⟨a, b ⟨x, hx, e⟩⟩⟩
  · rename_i hx
    have hx' : ∀ e ∈ d.live, e.1 ≠ h := fun e he h' => hx (List.any_eq_true.2 ⟨e, he, by simp [h']⟩)
    exact ⟨⟨fun _ => .inr hx', fun _ => rfl⟩, fun y => ⟨fun a => ⟨a, fun ⟨x, a, b⟩ => absurd b (hx' x a)⟩, fun a => a.1⟩⟩

/-- The keys registered are those the graphs remember. -/
structure KInv (w : World) : Prop where
  images : (w.st.images.map Prod.fst).Perm (w.graphs.flatMap fun e => e.2.images)
  views : (w.st.views.map Prod.fst).Perm (w.graphs.flatMap fun e => e.2.views)

theorem filter_keys {A : Type} {m : List (Nat × A)} {l rest : List Nat} (hn : (m.map Prod.fst).Nodup)
    (h : (m.map Prod.fst).Perm (l ++ rest)) : ((m.filter fun e => decide (e.1 ∉ l)).map Prod.fst).Perm rest := by
  have e1 : (m.filter fun e => decide (e.1 ∉ l)).map Prod.fst = (m.map Prod.fst).filter fun k => decide (k ∉ l) := by
    rw [List.filter_map]
    rfl
  rw [e1]
  have h2 := h.filter fun k => decide (k ∉ l)
  have hn2 := h.nodup_iff.1 hn
  rw [List.nodup_append] at hn2
  refine h2.trans ?_
  rw [List.filter_append]
  have a : l.filter (fun k => decide (k ∉ l)) = [] := by
    rw [List.filter_eq_nil_iff]; intro k hk; simp [hk]
  have b : rest.filter (fun k => decide (k ∉ l)) = rest := by
    rw [List.filter_eq_self]
    intro k hk
    have : k ∉ l := fun h => hn2.2.2 k h k hk rfl
    simp [this]
  rw [a, b, List.nil_append]

theorem never_step {w : World} (h : WInv w []) (hk : KInv w) (op : Op) (hc : op.Closed) :
    WInv (step (fun _ => false) w op) [] ∧ KInv (step (fun _ => false) w op) := by
  cases op with
  | create n sh =>
    have hs := never_construct sh w.st
    rcases create_step (fun _ => false) h n sh with e | ⟨_, g, s', e, e2, h'⟩ | ⟨_, _, e, _⟩
    · rw [e]; exact ⟨h, hk⟩
    · refine ⟨h', ?_⟩
      rw [e2]
      rcases construct_keys (fun _ => false) hc h.inv with ⟨g', s2, ni, nv, a, b, c, d, f⟩ | ⟨s2, _, _, a, _⟩
      · rw [e] at a
        injection a with a1 a2
        injection a1 with a1
        subst a1 a2
        refine ⟨?_, ?_⟩
        · simp only [b, List.map_append, c, List.flatMap_append, List.flatMap_cons, List.flatMap_nil, List.append_nil]
          exact hk.images.append_right _
        · simp only [d, List.map_append, f, List.flatMap_append, List.flatMap_cons, List.flatMap_nil, List.append_nil]
          exact hk.views.append_right _
      · rw [e] at a; cases a
    · rw [e] at hs; cases hs
  | reRecord n p i =>
    refine ⟨reRecord_step _ h n p i, ?_⟩
    unfold step
    simp only
    cases hf : find w.graphs n with
    | none => exact hk
    | some g =>
      simp only
      obtain ⟨a, b, c, d, _⟩ := reRecord_graphs (fun _ => false) p i g w.st
      generalize reRecord (fun _ => false) p i g w.st = r at a b c d
      refine ⟨?_, ?_⟩
      · show (r.2.images.map Prod.fst).Perm _
        rw [a, reRecord_images h.names hf (·.images) c]; exact hk.images
      · show (r.2.views.map Prod.fst).Perm _
        rw [b, reRecord_images h.names hf (·.views) d]; exact hk.views
  | destroy n =>
    refine ⟨destroy_step _ h n, ?_⟩
    unfold step
    simp only
    cases hf : find w.graphs n with
    | none => exact hk
    | some g =>
      simp only
      have hp := erase_perm h.names hf
      obtain ⟨a, b⟩ := destroyGraph_lists g w.st
      refine ⟨?_, ?_⟩
      · simp only [a]
        exact filter_keys h.inv.images (hk.images.trans (hp.flatMap_right _))
      · simp only [b]
        exact filter_keys h.inv.views (hk.views.trans (hp.flatMap_right _))

theorem never_run (n : Nat) (ops : List Op) (hc : ∀ op ∈ ops, op.Closed) :
    WInv (run (fun _ => false) (World.start n) ops) [] ∧ KInv (run (fun _ => false) (World.start n) ops) := by
  have key : ∀ (ops : List Op) (w : World), (∀ op ∈ ops, op.Closed) → WInv w [] → KInv w →
      WInv (run (fun _ => false) w ops) [] ∧ KInv (run (fun _ => false) w ops) := by
    intro ops
    induction ops with
    | nil => exact fun w _ a b => ⟨a, b⟩
    | cons op ops ih =>
      intro w hc a b
      obtain ⟨a', b'⟩ := never_step a b op (hc op (List.mem_cons_self))
      exact ih _ (fun o ho => hc o (List.mem_cons_of_mem _ ho)) a' b'
  exact key ops _ hc (start_inv n) ⟨by simp [World.start], by simp [World.start]⟩

/-- **C76** (driver that accepts everything): whatever graphs are made, re-recorded and destroyed, the objects that exist
are those of the graphs that exist and the images and views they registered; no image or view is registered that isn't
remembered by a graph. -/
theorem objects_belong_to_graphs (n : Nat) (ops : List Op) (hc : ∀ op ∈ ops, op.Closed) :
    let w := run (fun _ => false) (World.start n) ops
    w.st.drv.live.Perm ((w.graphs.flatMap fun e => e.2.objects) ++ w.st.registered) ∧
    (∀ i ∈ w.st.images.map Prod.fst, ∃ e ∈ w.graphs, i ∈ e.2.images) ∧
    (∀ v ∈ w.st.views.map Prod.fst, ∃ e ∈ w.graphs, v ∈ e.2.views) := by
  obtain ⟨h, hk⟩ := never_run n ops hc
  refine ⟨?_, ?_, ?_⟩
  · have := h.inv.drv.perm
    rw [List.append_nil] at this
    exact this.trans List.perm_append_comm
  · intro i hi
    exact List.mem_flatMap.1 (hk.images.mem_iff.1 hi)
  · intro i hi
    exact List.mem_flatMap.1 (hk.views.mem_iff.1 hi)

/-- **C76** (driver that accepts everything): once every graph is destroyed, nothing is left. -/
theorem all_destroyed_nothing_left (n : Nat) (ops : List Op) (hc : ∀ op ∈ ops, op.Closed)
    (h : (run (fun _ => false) (World.start n) ops).graphs = []) :
    (run (fun _ => false) (World.start n) ops).st.drv.live = [] ∧
    (run (fun _ => false) (World.start n) ops).st.images = [] ∧
    (run (fun _ => false) (World.start n) ops).st.views = [] := by
  obtain ⟨a, b, c⟩ := objects_belong_to_graphs n ops hc
  have hi : (run (fun _ => false) (World.start n) ops).st.images = [] := by
    cases hl : (run (fun _ => false) (World.start n) ops).st.images with
    | nil => rfl
    | cons e l =>
      rw [hl, h] at b
      obtain ⟨_, he, _⟩ := b e.1 (by simp)
      cases he
  have hv : (run (fun _ => false) (World.start n) ops).st.views = [] := by
    cases hl : (run (fun _ => false) (World.start n) ops).st.views with
    | nil => rfl
    | cons e l =>
      rw [hl, h] at c
      obtain ⟨_, he, _⟩ := c e.1 (by simp)
      cases he
  refine ⟨?_, hi, hv⟩
  simp only [h, St.registered, hi, hv, List.flatMap_nil, List.append_nil] at a
  exact a.eq_nil

/-- **C76**: with a driver that refuses whatever it wants, a graph that could be made leaves nothing when destroyed. -/
theorem destroyed_graph_leaves_nothing {w : World} (hw : Reachable w) (refuse : Nat → Bool) {sh : Shape} (hc : sh.Closed)
    {g : Graph} {s : St} (h : construct refuse sh w.st = (some g, s)) :
    (destroyGraph g s).drv.live.Perm w.st.drv.live ∧ (destroyGraph g s).images = w.st.images ∧
    (destroyGraph g s).views = w.st.views := by
  obtain ⟨lost, hi⟩ := reachable_inv hw
  obtain ⟨g', s', ni, nv, a, b, c, d, f⟩ := (construct_keys refuse hc hi.inv).resolve_right (by
    rintro ⟨_, _, _, a, _⟩; rw [h] at a; cases a)
  obtain ⟨g2, s2, a2, b2, c2, _⟩ := (construct_inv refuse sh hi.inv).resolve_right (by
    rintro (⟨_, a2, _⟩ | ⟨_, a2, _⟩) <;> (rw [h] at a2; cases a2))
  rw [h] at a a2
  injection a with e1 e2
  injection e1 with e1
  injection a2 with e3 e4
  injection e3 with e3
  subst e1 e2 e3 e4
  obtain ⟨l1, l2⟩ := destroyGraph_lists g s
  have him : (destroyGraph g s).images = w.st.images := by
    have := filter_middle (a := w.st.images) (b := ni) (c := []) c (by rw [List.append_nil, ← b]; exact b2.images)
    rw [l1, b]
    simpa using this
  have hvi : (destroyGraph g s).views = w.st.views := by
    have := filter_middle (a := w.st.views) (b := nv) (c := []) f (by rw [List.append_nil, ← d]; exact b2.views)
    rw [l2, d]
    simpa using this
  refine ⟨?_, him, hvi⟩
  obtain ⟨p, hp⟩ := Option.isSome_iff_exists.1 c2
  have hd := destroyGraph_inv b2 (fun e => by rw [hp] at e; cases e) ?_
  · refine hd.drv.perm.trans (hi.inv.drv.perm.trans ?_).symm
    rw [registered_def, registered_def, him, hvi]
  · intro q hq x
    have hn : ((g.objects ++ (s.registered ++ (w.graphs.map Prod.snd).flatMap Graph.objects ++ lost)).map Prod.fst).Nodup := by
      refine (List.Perm.map Prod.fst ?_).nodup_iff.1 b2.drv.nodup
      rw [List.flatMap_map, List.perm_iff_count]
      intro x
      simp only [List.count_append, World.objects]
      omega
    have := no_cb_of_nodup hq hn (fun e he q => by rw [hi.lost e he]; simp) x
    rw [List.flatMap_map, List.append_assoc] at this
    exact this

/-! ### When the driver refuses -/

/-- **C76** (partial: it should leave nothing): a construction that throws leaves nothing if the driver refused one of the
first four objects (query pool, command pool, fence, semaphore); otherwise it leaves the graph's semaphore and, at most,
one image and its memory. -/
theorem refused_graph_leaves_partial {w : World} (hw : Reachable w) (refuse : Nat → Bool) {sh : Shape} (hc : sh.Closed)
    {s : St} (h : construct refuse sh w.st = (none, s)) :
    ∃ left, s.drv.live.Perm (w.st.drv.live ++ left) ∧
      ((∃ i < 4, refuse (w.st.drv.calls + i) = true) → left = []) ∧
      ((∀ i < 4, refuse (w.st.drv.calls + i) = false) → left.head? = some (w.st.drv.calls + 3, .semaphore) ∧
        left.map (·.2) ∈ [[Kind.semaphore], [.semaphore, .image], [.semaphore, .image, .memory]]) := by
  obtain ⟨lost, hi⟩ := reachable_inv hw
  obtain ⟨s', half, hv, a, b, c, c', d, f, f'⟩ := (construct_keys refuse hc hi.inv).resolve_left (by
    rintro ⟨_, _, _, _, a, _⟩; rw [h] at a; cases a)
  rw [h] at a
  injection a with _ a
  subst a
  have hvo : hv.flatMap viewObjs = [] := by
    rw [List.flatMap_eq_nil_iff]
    intro e he
    simp [viewObjs, f e he]
  have hr : s.registered.Perm (w.st.registered ++ half.flatMap imageObjs) := by
    rw [registered_def, registered_def, b, d, List.flatMap_append, List.flatMap_append, hvo, List.append_nil,
      List.perm_iff_count]
    intro x
    simp only [List.count_append]
    omega
  have hk : (half.flatMap imageObjs).map (·.2) ∈ [[], [Kind.image], [.image, .memory]] := by
    match half, c, c' with
    | [], _, _ => simp
    | [(_, none, none)], _, _ => simp [imageObjs]
    | [(_, some _, none)], _, _ => simp [imageObjs]
    | [(_, some _, some _)], _, _ => simp [imageObjs]
    | [(_, none, some _)], _, hm => simp at hm
  rcases construct_inv refuse sh hi.inv with ⟨_, _, a2, _⟩ | ⟨s2, a2, b2, c2⟩ | ⟨s2, a2, b2, c2⟩
  · rw [h] at a2; cases a2
  · rw [h] at a2
    injection a2 with _ a2
    subst a2
    have he := f' c2
    subst he
    refine ⟨[], ?_, fun _ => rfl, ?_⟩
    · rw [List.append_nil]
      refine b2.drv.perm.trans ((hr.append_right _).trans ?_)
      simp only [List.flatMap_nil, List.append_nil]
      exact hi.inv.drv.perm.symm
    · intro hn
      obtain ⟨i, hi, hx⟩ := c2
      rw [hn i hi] at hx
      cases hx
  · rw [h] at a2
    injection a2 with _ a2
    subst a2
    refine ⟨(w.st.drv.calls + 3, .semaphore) :: half.flatMap imageObjs, ?_, ?_, fun _ => ⟨rfl, ?_⟩⟩
    · refine b2.drv.perm.trans ((hr.append_right _).trans ?_)
      have := hi.inv.drv.perm
      rw [List.perm_iff_count] at this ⊢
      intro x
      have := this x
      simp only [List.count_append, List.count_cons] at this ⊢
      omega
    · rintro ⟨i, hi, hx⟩
      rw [c2 i hi] at hx
      cases hx
    · rw [List.map_cons]
      generalize (half.flatMap imageObjs).map (·.2) = l at hk
      simp only [List.mem_cons, List.not_mem_nil, or_false] at hk ⊢
      rcases hk with h | h | h <;> simp [h]

/-- **C76**: a pass that can't be made leaves nothing. -/
theorem refused_pass_leaves_nothing {w : World} (hw : Reachable w) (refuse : Nat → Bool) (n : Nat) {d : Drv}
    (h : makePass refuse n [] w.st.drv = (none, d)) : d.live.Perm w.st.drv.live := by
  obtain ⟨lost, hi⟩ := reachable_inv hw
  have := makePass_inv refuse none n (d := w.st.drv) [] (by simp) hi.inv.drv
  rw [h] at this
  exact this.perm.trans hi.inv.drv.perm.symm

/-- **Negation**: if the driver accepts the semaphore and refuses anything later, the semaphore is left for ever, whatever
is done and destroyed afterwards. -/
theorem refused_graph_loses_semaphore {w : World} (hw : Reachable w) (refuse : Nat → Bool) (sh : Shape) {s : St}
    (h : construct refuse sh w.st = (none, s)) (h4 : ∀ i < 4, refuse (w.st.drv.calls + i) = false)
    (refuse' : Nat → Bool) (ops : List Op) :
    (w.st.drv.calls + 3, .semaphore) ∈ (run refuse' { w with st := s } ops).st.drv.live := by
  obtain ⟨lost, hi⟩ := reachable_inv hw
  rcases construct_inv refuse sh hi.inv with ⟨_, _, a2, _⟩ | ⟨s2, a2, b2, i, c2, c3⟩ | ⟨s2, a2, b2, c2⟩
  · rw [h] at a2; cases a2
  · rw [h4 i c2] at c3; cases c3
  · rw [h] at a2
    injection a2 with _ a2
    subst a2
    have hw' : WInv { w with st := s } ((w.st.drv.calls + 3, .semaphore) :: lost) := by
      refine ⟨b2.congr List.perm_middle.symm, ?_, hi.pools, hi.names⟩
      intro e he
      rcases List.mem_cons.1 he with rfl | he
      · rfl
      · exact hi.lost e he
    obtain ⟨more, hr⟩ := run_inv refuse' ops hw'
    exact hr.inv.drv.perm.mem_iff.2 (by simp)

/-! ### Refused images -/

theorem find_append {A : Type} {l r : List (Nat × A)} {i : Nat} {e : A} (h : find l i = some e) :
    find (l ++ r) i = some e := by
  unfold find at h ⊢
  rw [List.find?_append]
  cases hf : l.find? (fun x => x.1 == i) with
  | none => rw [hf] at h; cases h
  | some x => rw [hf] at h; exact h

theorem find_filter {A : Type} {l : List (Nat × A)} {ks : List Nat} {i : Nat} {e : A} (hi : i ∉ ks)
    (h : find l i = some e) : find (l.filter fun x => decide (x.1 ∉ ks)) i = some e := by
  unfold find at h ⊢
  rw [List.find?_filter, ← h]
  congr 2
  funext x
  by_cases hx : x.1 = i
  · simp [hx, hi]
  · simp [hx]

/-- An image no graph remembers stays as it is. -/
theorem unowned_stays (refuse : Nat → Bool) (ops : List Op) : ∀ {w : World} {lost}, WInv w lost → ∀ {i e},
    find w.st.images i = some e → Unowned w i →
    find (run refuse w ops).st.images i = some e ∧ ∃ l, WInv (run refuse w ops) l := by
  induction ops with
  | nil => intro w lost h i e hf _; exact ⟨hf, _, h⟩
  | cons op ops ih =>
    intro w lost h i e hf hu
    have hstep : (find (step refuse w op).st.images i = some e ∧ Unowned (step refuse w op) i) ∧
        ∃ l, WInv (step refuse w op) l := by
      cases op with
      | create n sh =>
        rcases create_step refuse h n sh with e' | ⟨_, g, s', e1, e2, h'⟩ | ⟨_, s', e1, e2, h'⟩
        · rw [e']; exact ⟨⟨hf, hu⟩, _, h⟩
        · refine ⟨?_, _, h'⟩
          have hn : ((step refuse w (.create n sh)).st.images.map Prod.fst).Nodup := h'.inv.images
          rw [e2] at hn ⊢
          obtain ⟨g', s2, a, ni, b, c, d⟩ := (construct_grows refuse sh h.inv).resolve_right (by
            rintro ⟨_, _, a, _⟩; rw [e1] at a; cases a)
          rw [e1] at a
          injection a with a1 a2
          injection a1 with a1
          subst a1 a2
          simp only at hn b c d ⊢
          rw [b] at hn ⊢
          refine ⟨find_append hf, ?_⟩
          intro x hx
          rcases List.mem_append.1 hx with hx | hx
          · exact hu x hx
          · rw [List.mem_singleton.1 hx]
            simp only
            intro hi
            rw [List.map_append, List.nodup_append] at hn
            exact hn.2.2 i (List.mem_map.2 ⟨_, find_some hf, rfl⟩) i (d i hi) rfl
        · refine ⟨?_, h'.elim (fun h => ⟨_, h⟩) (fun h => ⟨_, h⟩)⟩
          rw [e2]
          obtain ⟨s2, half, a, b⟩ := (construct_grows refuse sh h.inv).resolve_left (by
            rintro ⟨_, _, a, _⟩; rw [e1] at a; cases a)
          rw [e1] at a
          injection a with _ a
          subst a
          simp only
          rw [b]
          exact ⟨find_append hf, hu⟩
      | reRecord n p k =>
        refine ⟨?_, _, reRecord_step refuse h n p k⟩
        unfold step
        simp only
        cases hg : find w.graphs n with
        | none => exact ⟨hf, hu⟩
        | some g =>
          obtain ⟨a, _, c, _, _⟩ := reRecord_graphs refuse p k g w.st
          simp only
          refine ⟨by rw [a]; exact hf, ?_⟩
          intro x hx
          obtain ⟨y, hy, rfl⟩ := List.mem_map.1 hx
          split
          · rw [c]
            exact hu _ (find_some hg)
          · exact hu y hy
      | destroy n =>
        refine ⟨?_, _, destroy_step refuse h n⟩
        unfold step
        simp only
        cases hg : find w.graphs n with
        | none => exact ⟨hf, hu⟩
        | some g =>
          simp only
          refine ⟨?_, ?_⟩
          · rw [(destroyGraph_lists g w.st).1]
            exact find_filter (hu _ (find_some hg)) hf
          · intro x hx
            exact hu x (List.mem_filter.1 hx).1
    obtain ⟨⟨h1, h2⟩, l, h3⟩ := hstep
    exact ih h3 h1 h2

/-- **Negation**: an image the driver refused (or whose memory it refused) is not made later: every later request gets the
handle as it was left, possibly null, without any driver call; nothing any graph does repairs or destroys it. -/
theorem refused_image_is_never_made {w : World} (hw : Reachable w) (refuse : Nat → Bool) (i : Nat) {s : St}
    (h : createImage refuse i w.st = (none, s)) (refuse' : Nat → Bool) (ops : List Op) :
    ∃ img mem, find s.images i = some (img, mem) ∧
      let w' := run refuse' { w with st := s } ops
      (∀ r, createImage r i w'.st = (some (img, false), w'.st)) ∧
      (∀ x, img = some x → (x, .image) ∈ w'.st.drv.live) ∧ (∀ x, mem = some x → (x, .memory) ∈ w'.st.drv.live) := by
  obtain ⟨⟨lost, hi⟩, hr⟩ := reachable_both hw
  have hh := hi.inv.createImage refuse i
  rcases createImage_cases refuse i w.st with ⟨e, _, a⟩ | ⟨hf, o, e, d, a, _⟩
  · rw [h] at a; cases a
  have ao := congrArg Prod.snd (h.symm.trans a)
  simp only at ao
  rw [h] at hh
  simp only at hh
  have hw' : WInv { w with st := s } lost := ⟨hh, hi.lost, hi.pools, hi.names⟩
  have hu : Unowned { w with st := s } i := by
    intro x hx hm
    exact find_none hf (hr.reg i (List.mem_flatMap.2 ⟨x, hx, hm⟩))
  have hfs : find s.images i = some e := by
    rw [ao]
    unfold find at hf ⊢
    rw [Option.map_eq_none_iff] at hf
    simp [List.find?_append, hf]
  obtain ⟨h1, l, h2⟩ := unowned_stays refuse' ops hw' (e := e) hfs hu
  refine ⟨e.1, e.2, hfs, ?_, ?_, ?_⟩
  · intro r
    unfold createImage
    rw [h1]
  · intro x hx
    refine h2.inv.drv.perm.mem_iff.2 (List.mem_append_left _ ?_)
    rw [registered_def]
    exact List.mem_append_left _ (List.mem_flatMap.2 ⟨_, find_some h1, by simp [imageObjs, hx]⟩)
  · intro x hx
    refine h2.inv.drv.perm.mem_iff.2 (List.mem_append_left _ ?_)
    rw [registered_def]
    exact List.mem_append_left _ (List.mem_flatMap.2 ⟨_, find_some h1, by simp [imageObjs, hx]⟩)

/-- An image that isn't registered and that the driver accepts is made: a live image, live memory. -/
theorem accepted_image_is_made_partial {w : World} (hw : Reachable w) (refuse : Nat → Bool) (i : Nat)
    (hf : i ∉ w.st.images.map Prod.fst) (hr : ∀ k < 3, refuse (w.st.drv.calls + k) = false) :
    ∃ x m s, createImage refuse i w.st = (some (some x, true), s) ∧ (x, .image) ∈ s.drv.live ∧ (m, .memory) ∈ s.drv.live ∧
      find s.images i = some (some x, some m) ∧ (∀ k, (x, k) ∉ w.st.drv.live) := by
  obtain ⟨lost, hi⟩ := reachable_inv hw
  have hn : find w.st.images i = none := by
    cases h : find w.st.images i with
    | none => rfl
    | some e => exact absurd (List.mem_map.2 ⟨_, find_some h, rfl⟩) hf
  have h0 := hr 0 (by omega)
  have h1 := hr 1 (by omega)
  have h2 := hr 2 (by omega)
  refine ⟨w.st.drv.calls, w.st.drv.calls + 1, (createImage refuse i w.st).2, ?_, ?_, ?_, ?_, ?_⟩
  · refine Prod.ext ?_ rfl
    simp only [createImage, hn, Drv.create, Drv.call, Nat.add_zero] at h0 ⊢
    simp [h0, h1, h2]
  · show _ ∈ (createImage refuse i w.st).2.drv.live
    simp only [createImage, hn, Drv.create, Drv.call, Nat.add_zero] at h0 ⊢
    simp [h0, h1, h2]
  · show _ ∈ (createImage refuse i w.st).2.drv.live
    simp only [createImage, hn, Drv.create, Drv.call, Nat.add_zero] at h0 ⊢
    simp [h0, h1, h2]
  · show find (createImage refuse i w.st).2.images i = _
    have hn' := hn
    unfold find at hn'
    rw [Option.map_eq_none_iff] at hn'
    simp only [createImage, hn, Drv.create, Drv.call, Nat.add_zero] at h0 ⊢
    simp [h0, h1, h2, find, List.find?_append, hn']
  · intro k hk
    have := hi.inv.drv.lt _ (hi.inv.drv.perm.mem_iff.1 hk)
    simp at this

/-! ### Refused samplers and vertex buffers -/

theorem asks_keep_sampler (refuse : Nat → Bool) (l : List Ask) : ∀ {s : Slots} {k h}, find s.samplers k = some h →
    find (asks refuse s l).samplers k = some h := by
  induction l with
  | nil => intro s k h hf; exact hf
  | cons a l ih =>
    intro s k h hf
    refine ih ?_
    cases a with
    | sampler k' =>
      simp only [ask, getSampler]
      split
      · exact hf
      · split <;> exact find_append hf
    | quad k' =>
      simp only [ask, getQuad]
      split
      · exact hf
      · exact hf
      · split
        · exact hf
        · split
          · exact hf
          · split
            · exact hf
            · split <;> exact hf

theorem asks_keep_quad (refuse : Nat → Bool) (l : List Ask) : ∀ {s : Slots} {k h}, find s.quads k = some h →
    find (asks refuse s l).quads k = some h := by
  induction l with
  | nil => intro s k h hf; exact hf
  | cons a l ih =>
    intro s k h hf
    refine ih ?_
    cases a with
    | sampler k' =>
      simp only [ask, getSampler]
      split
      · exact hf
      · split <;> exact hf
    | quad k' =>
      simp only [ask, getQuad]
      split
      · exact hf
      · exact hf
      · split
        · exact find_append hf
        · split
          · exact find_append hf
          · split
            · exact find_append hf
            · split <;> exact find_append hf

theorem find_snoc {A : Type} {l : List (Nat × A)} {k : Nat} {a : A} (h : find l k = none) :
    find (l ++ [(k, a)]) k = some a := by
  unfold find at h ⊢
  rw [Option.map_eq_none_iff] at h
  simp [List.find?_append, h]

/-- **Negation**: once the driver refused a sampler, every later request for it gets a null handle, without a driver call. -/
theorem refused_sampler_is_null (refuse : Nat → Bool) (k : Nat) (s : Slots) (h : (getSampler refuse k s).1 = .throws)
    (refuse' : Nat → Bool) (l : List Ask) (r : Nat → Bool) :
    let s' := asks refuse' (getSampler refuse k s).2 l
    getSampler r k s' = (.ok none, s') := by
  have hf : find (getSampler refuse k s).2.samplers k = some none := by
    unfold getSampler at h ⊢
    cases hn : find s.samplers k with
    | some o => rw [hn] at h; cases h
    | none =>
      rw [hn] at h
      simp only at h ⊢
      rcases create_cases refuse .sampler s.drv with ⟨e, _⟩ | ⟨e, _⟩
      · rw [e]; exact find_snoc hn
      · rw [e] at h; cases h
  have := asks_keep_sampler refuse' l hf
  simp only
  generalize asks refuse' (getSampler refuse k s).2 l = s' at this
  simp [getSampler, this]

/-- **Negation**: once the driver refused a quad's vertex buffer (or its memory, binding, mapping), every later request for
it dereferences a null pointer; and the buffer and memory it had accepted are not destroyed with the cache. -/
theorem refused_quad_is_null (refuse : Nat → Bool) (k : Nat) (s : Slots) (h : (getQuad refuse k s).1 = .throws)
    (refuse' : Nat → Bool) (l : List Ask) (r : Nat → Bool) :
    (getQuad r k (asks refuse' (getQuad refuse k s).2 l)).1 = .nullDeref := by
  have hf : find (getQuad refuse k s).2.quads k = some none := by
    unfold getQuad at h ⊢
    cases hn : find s.quads k with
    | some o => rw [hn] at h; cases o <;> cases h
    | none =>
      rw [hn] at h
      simp only at h ⊢
      split at h
      · exact find_snoc hn
      · split at h
        · exact find_snoc hn
        · split at h
          · exact find_snoc hn
          · split at h
            · exact find_snoc hn
            · cases h
  have := asks_keep_quad refuse' l hf
  generalize asks refuse' (getQuad refuse k s).2 l = s' at this
  simp [getQuad, this]

/-- The objects of the cache. -/
def Slots.objects (s : Slots) : List (Nat × Kind) :=
  s.samplers.flatMap (fun e => e.2.toList.map fun h => (h, .sampler))
    ++ s.quads.flatMap (fun e => match e.2 with
      | some (h, m) => [(m, .memory), (h, .buffer)]
      | none => [])

theorem asks_inv (refuse : Nat → Bool) (hr : ∀ n, refuse n = false) (l : List Ask) : ∀ {s : Slots} {A},
    DInv s.drv (s.objects ++ A) → DInv (asks refuse s l).drv ((asks refuse s l).objects ++ A) := by
  induction l with
  | nil => intro s A h; exact h
  | cons a l ih =>
    intro s A h
    refine ih ?_
    cases a with
    | sampler k =>
      simp only [ask, getSampler]
      split
      · exact h
      · simp only [Drv.create, hr, Bool.false_eq_true, ↓reduceIte]
        refine (h.create (k := .sampler) (by simp)).congr ?_
        simp only [Slots.objects, List.flatMap_append, List.flatMap_cons, List.flatMap_nil, Option.toList_some, List.map_cons,
          List.map_nil]
        rw [List.perm_iff_count]
        intro x
        simp only [List.count_append, List.count_cons, List.count_nil]
        omega
    | quad k =>
      simp only [ask, getQuad]
      split
      · exact h
      · exact h
      · simp only [Drv.create, Drv.call, hr, Bool.false_eq_true, ↓reduceIte, Bool.not_false]
        refine (((h.create (k := .buffer) (by simp)).create (k := .memory) (by simp)).call.call).congr ?_
        simp only [Slots.objects, List.flatMap_append, List.flatMap_cons, List.flatMap_nil]
        rw [List.perm_iff_count]
        intro x
        simp only [List.count_append, List.count_cons, List.count_nil]
        omega

theorem close_inv {s : Slots} {A} (h : DInv s.drv (s.objects ++ A)) : DInv s.close A := by
  have h1 : ∀ (l : List (Nat × Option Nat)) {d B}, DInv d (l.flatMap (fun e => e.2.toList.map fun h => (h, Kind.sampler)) ++ B) →
      DInv (l.foldl (fun d e => d.destroyOpt e.2) d) B := by
    intro l
    induction l with
    | nil => intro d B h; exact h
    | cons e l ih =>
      intro d B h
      rw [List.flatMap_cons, List.append_assoc] at h
      exact ih (DInv.destroyOpt h (by simp))
  have h2 : ∀ (l : List (Nat × Option (Nat × Nat))) {d B}, DInv d (l.flatMap (fun e => match e.2 with
      | some (h, m) => [(m, Kind.memory), (h, .buffer)]
      | none => []) ++ B) →
      DInv (l.foldl (fun d e => match e.2 with
        | some (h, m) => (d.destroy m).destroy h
        | none => d) d) B := by
    intro l
    induction l with
    | nil => intro d B h; exact h
    | cons e l ih =>
      intro d B h
      rw [List.flatMap_cons, List.append_assoc] at h
      refine ih ?_
      obtain ⟨k, o⟩ := e
      cases o with
      | none => exact h
      | some b => exact DInv.destroy (k := .buffer) (DInv.destroy (k := .memory) h (by simp)) (by simp)
  refine h2 s.quads (h1 s.samplers ?_)
  rw [← List.append_assoc]
  exact h

/-- **C77** (driver that accepts everything): whatever is requested, closing the cache destroys each sampler, buffer and
memory it created, once, and nothing else. -/
theorem cache_closed_leaves_nothing (n : Nat) (l : List Ask) :
    (asks (fun _ => false) { drv := { calls := n } } l).close.live = [] ∧
    (asks (fun _ => false) { drv := { calls := n } } l).close.misuse = false := by
  have h : DInv (asks (fun _ => false) { drv := { calls := n } } l).drv
      ((asks (fun _ => false) { drv := { calls := n } } l).objects ++ []) := by
    refine asks_inv (fun _ => false) (fun _ => rfl) l ?_
    exact ⟨by simp [Slots.objects], by simp [Slots.objects], by simp [Slots.objects], by simp [Slots.objects], rfl⟩
  have := close_inv h
  exact ⟨this.perm.eq_nil, this.ok⟩

/-- **Negation**: the driver accepts the buffer and refuses its memory; the buffer outlives the cache. -/
theorem refused_quad_loses_buffer (n k : Nat) (refuse : Nat → Bool) (h0 : refuse n = false) (h1 : refuse (n + 1) = true) :
    (getQuad refuse k { drv := { calls := n } }).1 = .throws ∧
    (getQuad refuse k { drv := { calls := n } }).2.close.live = [(n, .buffer)] := by
  simp [getQuad, find, Drv.create, h0, h1, Slots.close]

/-! ### Concrete cases -/

/-- A sampler and two quads; the second quad's memory is refused. -/
theorem example_asks :
    ((asks (fun n => n == 6) {} [.sampler 4, .quad 1, .quad 2, .quad 1]).close.live).map (·.2) = [.buffer] ∧
    (getQuad (fun n => n == 6) 2 (asks (fun n => n == 6) {} [.sampler 4, .quad 1])).1 = .throws := by
  decide +kernel

/-- Two passes, one of two indices; an image shared with other graphs. -/
def exampleShape : Shape := ⟨[1, 2], [(10, 1), (11, 2)], [(2, true), (1, false)]⟩
def otherShape : Shape := ⟨[2, 3], [(11, 2), (12, 3)], [(1, true)]⟩

theorem example_closed : exampleShape.Closed ∧ otherShape.Closed := by
  constructor <;> (unfold Shape.Closed; decide)

def exampleOps : List Op :=
  [.create 0 exampleShape, .create 1 otherShape, .reRecord 0 0 1, .reRecord 1 0 0, .destroy 0, .create 2 exampleShape, .destroy 1]

/-- Objects exist while the graphs do, and all go. -/
theorem example_objects :
    (run (fun _ => false) (World.start 0) exampleOps).st.drv.live.length = 17 ∧
    (run (fun _ => false) (World.start 0) (exampleOps ++ [.destroy 2])).graphs.map (·.1) = [] := by
  decide +kernel

/-- The driver refuses the memory of the second image of the second graph: the semaphore and the image are left. -/
theorem example_refused :
    (construct (fun n => n == 26) otherShape (run (fun _ => false) (World.start 0) [.create 0 exampleShape]).st).1 = none ∧
    ((run (fun n => n == 26) (World.start 0) [.create 0 exampleShape, .create 1 otherShape, .destroy 0]).st.drv.live).map (·.2) =
      [.semaphore, .image] := by
  decide +kernel

end Verif.Life
