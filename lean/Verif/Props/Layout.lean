import Verif.Lemmas.Layout
/-
C08 – C11: the layout tracker (`LayerLayoutStatesHandler`, `FrameGraph::addInput/addOutput/get…LayoutState`,
`RecordContext::set/getLayoutState` all go through it). The tracker state `m` is arbitrary, so the statements
hold after every history.
-/
namespace Verif

def exImg : Image := ⟨1, 37, 4, 6, 64, 64, 1⟩
def exImg3D : Image := ⟨2, 37, 4, 1, 64, 64, 8⟩
def exR : Range := ⟨1, 0, 2, 1, 3⟩
def exState : LayoutState := makeLayoutState Layout.shaderReadOnly

/-! ### C08 -/

/-- C08, read back: after setting the state of the view `(vt, r)`, reading any view `(vt', r')` of the same image
that designates a non-empty part of the same subresources returns that state. -/
theorem set_then_get_sub (m : LayoutMap) (img : Image) (vt vt' : ViewType) (r r' a b : Range) (s : LayoutState)
    (ha : Designates img vt r a) (hb : Designates img vt' r' b) (hne : b.NonEmpty) (hsub : b.Sub a) :
    (m.setState img vt r s).getState img vt' r' = s := by
  obtain ⟨l, v, hl⟩ := b.nonEmpty_iff.1 hne
  apply LayoutMap.getState_uniform
  · refine ⟨l, v, (hb.has_iff l v).1 hl, ?_⟩
    rw [LayoutMap.at_setState, if_pos ⟨rfl, (ha.has_iff l v).1 (hsub l v hl)⟩]
    rfl
  · intro l v t h1 h2
    rw [LayoutMap.at_setState, if_pos ⟨rfl, (ha.has_iff l v).1 (hsub l v ((hb.has_iff l v).2 h1))⟩] at h2
    simpa using h2.symm

example : Designates exImg .d2Array exR exR ∧ Designates exImg .d2 ⟨1, 1, 1, 2, 1⟩ ⟨1, 1, 1, 2, 1⟩
    ∧ (⟨1, 1, 1, 2, 1⟩ : Range).NonEmpty ∧ (⟨1, 1, 1, 2, 1⟩ : Range).Sub exR := by
  refine ⟨⟨⟨rfl, rfl⟩, by simp, fun _ => ⟨rfl, rfl⟩⟩, ⟨⟨rfl, rfl⟩, by simp, fun _ => ⟨rfl, rfl⟩⟩, by decide, ?_⟩
  intro l m h; unfold Range.Has exR at *; simp at *; omega

/-- C08, frame on the same image: reading a view that designates subresources disjoint from those written
returns what it returned before, provided the image was already known (see
`set_then_get_disjoint_first_partial` for an image that had no entry at all). -/
theorem set_then_get_disjoint (m : LayoutMap) (img : Image) (vt vt' : ViewType) (r r' a b : Range)
    (s : LayoutState) (ha : Designates img vt r a) (hb : Designates img vt' r' b) (hdis : b.Disjoint a)
    (hknown : (m img.id).isSome) :
    (m.setState img vt r s).getState img vt' r' = m.getState img vt' r' := by
  obtain ⟨x, hx⟩ := Option.isSome_iff_exists.1 hknown
  unfold LayoutMap.getState LayoutMap.setState
  simp only [if_true, hx, Option.getD_some]
  apply getSubresourceRangeLayout_congr
  intro l v h
  rw [addSubresourceRangeLayout_apply, if_neg]
  intro h'
  exact hdis l v ⟨(hb.has_iff l v).2 h, (ha.has_iff l v).2 h'⟩

/-- C08, frame, image unknown before: the layout read stays UNDEFINED (the stage mask of the answer changes from
BOTTOM_OF_PIPE to HOST, which is why the full statement above needs `hknown`). -/
theorem set_then_get_disjoint_first_partial (m : LayoutMap) (img : Image) (vt vt' : ViewType) (r r' a b : Range)
    (s : LayoutState) (ha : Designates img vt r a) (hb : Designates img vt' r' b) (hdis : b.Disjoint a)
    (hunknown : m img.id = none) :
    ((m.setState img vt r s).getState img vt' r').layout = Layout.undefined
      ∧ (m.getState img vt' r').layout = Layout.undefined := by
  unfold LayoutMap.getState LayoutMap.setState
  simp only [if_true, hunknown, Option.getD_none, and_true]
  have : getSubresourceRangeLayout (addSubresourceRangeLayout (fun _ _ => none) (getVirtualRange img vt r) s)
      (getVirtualRange img vt' r') = getSubresourceRangeLayout (fun _ _ => none) (getVirtualRange img vt' r') := by
    apply getSubresourceRangeLayout_congr
    intro l v h
    rw [addSubresourceRangeLayout_apply, if_neg]
    intro h'
    exact hdis l v ⟨(hb.has_iff l v).2 h, (ha.has_iff l v).2 h'⟩
  rw [this]
  unfold getSubresourceRangeLayout
  have hn : foundStates (fun _ _ => none) (getVirtualRange img vt' r') = [] := by
    rw [List.eq_nil_iff_forall_not_mem]
    intro t ht
    obtain ⟨l, v, _, h⟩ := mem_foundStates.1 ht
    simp at h
  rw [hn]
  rfl

/-- C08, frame on other images. -/
theorem set_then_get_other_image (m : LayoutMap) (img img' : Image) (vt vt' : ViewType) (r r' : Range)
    (s : LayoutState) (h : img'.id ≠ img.id) :
    (m.setState img vt r s).getState img' vt' r' = m.getState img' vt' r' := by
  unfold LayoutMap.getState LayoutMap.setState
  simp [h]

/-! ### C09 -/

/-- C09. No subresource of the view known: the answer is UNDEFINED, without access. -/
theorem get_unknown_is_undefined (m : LayoutMap) (img : Image) (vt : ViewType) (r a : Range)
    (ha : Designates img vt r a) (h : ∀ l v, a.Has l v → m.at img.id l v = none) :
    (m.getState img vt r).layout = Layout.undefined ∧ (m.getState img vt r).state.access = 0 := by
  unfold LayoutMap.getState
  unfold LayoutMap.at at h
  cases hm : m img.id with
  | none => exact ⟨rfl, rfl⟩
  | some x =>
    simp only [hm] at h ⊢
    unfold getSubresourceRangeLayout
    have hn : foundStates x (getVirtualRange img vt r) = [] := by
      rw [List.eq_nil_iff_forall_not_mem]
      intro t ht
      obtain ⟨l, v, h1, h2⟩ := mem_foundStates.1 ht
      rw [h l v ((ha.has_iff l v).2 h1)] at h2
      simp at h2
    rw [hn]
    exact ⟨rfl, rfl⟩

/-- C09. Otherwise the layout reported is the layout of some subresource of the view, no subresource of the
view has a numerically smaller one, and the access mask reported covers the accesses of every subresource of
the view that is in the reported layout. -/
theorem get_is_some_subresource (m : LayoutMap) (img : Image) (vt : ViewType) (r a : Range)
    (ha : Designates img vt r a) (h : ∃ l v, a.Has l v ∧ (m.at img.id l v).isSome) :
    (∃ l v t, a.Has l v ∧ m.at img.id l v = some t ∧ t.layout = (m.getState img vt r).layout)
    ∧ (∀ l v t, a.Has l v → m.at img.id l v = some t → (m.getState img vt r).layout ≤ t.layout)
    ∧ (∀ l v t, a.Has l v → m.at img.id l v = some t → t.layout = (m.getState img vt r).layout →
        t.state.access &&& (m.getState img vt r).state.access = t.state.access) := by
  unfold LayoutMap.at at *
  cases hm : m img.id with
  | none => simp [hm] at h
  | some x =>
    simp only [hm] at h ⊢
    have hg : m.getState img vt r = getSubresourceRangeLayout x (getVirtualRange img vt r) := by
      simp [LayoutMap.getState, hm]
    rw [hg]
    obtain ⟨l0, v0, h0, hs0⟩ := h
    obtain ⟨t0, ht0⟩ := Option.isSome_iff_exists.1 hs0
    have hf : ∀ l v t, a.Has l v → x l v = some t → t ∈ foundStates x (getVirtualRange img vt r) :=
      fun l v t h1 h2 => mem_foundStates.2 ⟨l, v, (ha.has_iff l v).1 h1, h2⟩
    have hscan := scan_found x (getVirtualRange img vt r)
    unfold getSubresourceRangeLayout
    generalize hacc : (foundStates x (getVirtualRange img vt r)).foldl (fun acc s => emplaceState s acc) [] = acc
    rw [hacc] at hscan
    cases acc with
    | nil =>
      have := (hscan.layouts t0.layout).2 ⟨t0, hf _ _ _ h0 ht0, rfl⟩
      simp at this
    | cons u us =>
      have hsort := hscan.sorted
      unfold Sorted at hsort
      rw [List.pairwise_cons] at hsort
      simp only
      refine ⟨?_, ?_, ?_⟩
      · obtain ⟨t, ht, e⟩ := (hscan.layouts u.layout).1 ⟨u, by simp, rfl⟩
        obtain ⟨l, v, h1, h2⟩ := mem_foundStates.1 ht
        exact ⟨l, v, t, (ha.has_iff l v).2 h1, h2, e⟩
      · intro l v t h1 h2
        obtain ⟨w, hw, e⟩ := (hscan.layouts t.layout).2 ⟨t, hf l v t h1 h2, rfl⟩
        simp at hw
        rcases hw with rfl | hw
        · omega
        · have := hsort.1 w hw; omega
      · intro l v t h1 h2 e
        obtain ⟨w, hw, e', c⟩ := hscan.covers t (hf l v t h1 h2)
        simp at hw
        rcases hw with rfl | hw
        · exact c
        · have := hsort.1 w hw; omega

/-- C09. When all known subresources of the view share one layout, that is the answer. -/
theorem get_uniform_layout (m : LayoutMap) (img : Image) (vt : ViewType) (r a : Range)
    (ha : Designates img vt r a) (x : Nat) (h : ∃ l v, a.Has l v ∧ (m.at img.id l v).isSome)
    (hu : ∀ l v t, a.Has l v → m.at img.id l v = some t → t.layout = x) :
    (m.getState img vt r).layout = x := by
  obtain ⟨⟨l, v, t, h1, h2, h3⟩, _⟩ := get_is_some_subresource m img vt r a ha h
  rw [← h3]; exact hu l v t h1 h2

example : ∃ l v, exR.Has l v ∧ ((LayoutMap.empty.setState exImg .d2Array exR exState).at exImg.id l v).isSome :=
  ⟨1, 0, by decide, by simp [LayoutMap.at_setState, getVirtualRange, exR, Range.Has]⟩

/-! ### C10 -/

/-- C10 (partial: needs the depth of the image, halved once per mip, not to vanish). Reading back a 3D view of
one level or of the whole mip chain. -/
theorem view3D_read_back_partial (m : LayoutMap) (img : Image) (r : Range) (s : LayoutState)
    (hl : r.levels = 1 ∨ (r.levels = img.mipLevels ∧ 0 < img.mipLevels))
    (hd : 2 ^ r.baseMip ≤ img.depth) :
    (m.setState img .d3 r s).getState img .d3 r = s := by
  have hpos : 0 < img.depth / 2 ^ r.baseMip := Nat.div_pos hd (Nat.two_pow_pos _)
  refine set_then_get_sub m img .d3 .d3 r r (getVirtualRange img .d3 r) (getVirtualRange img .d3 r) s
    (virtual_designates _ _ _) (virtual_designates _ _ _) ?_ (fun _ _ h => h)
  have hc : r.levels = 1 ∨ r.levels = img.mipLevels := hl.imp id And.left
  have h' := (virtual_designates img .d3 r).slices rfl hc
  have h'' := (virtual_designates img .d3 r).mips
  refine ⟨by rw [h'.2]; exact hpos, by rw [h''.2]; rcases hl with h | h <;> omega⟩

example : (2 : Nat) ^ (⟨1, 2, 1, 0, 1⟩ : Range).baseMip ≤ exImg3D.depth := by decide

/-- C10 is false in general: when the mip's depth would round to zero (here an 8-deep image, mip 4 of 5; the
real mip has depth 1), the state set for the view is lost and the layout reads UNDEFINED. -/
theorem view3D_state_lost :
    ∃ (img : Image) (r : Range) (s : LayoutState), r.baseMip + r.levels ≤ img.mipLevels ∧ 0 < r.levels
      ∧ s.layout ≠ Layout.undefined
      ∧ ((LayoutMap.empty.setState img .d3 r s).getState img .d3 r).layout = Layout.undefined := by
  refine ⟨⟨2, 37, 5, 1, 64, 64, 8⟩, ⟨1, 4, 1, 0, 1⟩, exState, by decide, by decide, by decide, ?_⟩
  decide

/-- C08/C10, a further disagreement: writing a 3D view of some (neither one nor all) of the levels only updates
slice 0, so reading one of these levels afterwards can still report the stale layout. -/
theorem view3D_partial_levels_stale :
    ∃ (img : Image) (s t : LayoutState), s.layout ≠ t.layout ∧
      (((LayoutMap.empty.setState img .d3 ⟨1, 1, 1, 0, 1⟩ s).setState img .d3 ⟨1, 1, 2, 0, 1⟩ t).getState
        img .d3 ⟨1, 1, 1, 0, 1⟩).layout = s.layout := by
  refine ⟨exImg3D, makeLayoutState Layout.shaderReadOnly, makeLayoutState Layout.transferDst, by decide, ?_⟩
  decide

/-! ### C11, image part -/

/-- C11. An image with a known state keeps it, another one gets the imported state. -/
theorem import_keeps_known (m d : LayoutMap) (img : Image) (vt : ViewType) (r : Range) :
    ((m img.id).isSome → (m.addStates d).getState img vt r = m.getState img vt r)
    ∧ (m img.id = none → (m.addStates d).getState img vt r = d.getState img vt r) := by
  constructor
  · intro h
    obtain ⟨x, hx⟩ := Option.isSome_iff_exists.1 h
    simp [LayoutMap.getState, LayoutMap.addStates, hx]
  · intro h
    simp [LayoutMap.getState, LayoutMap.addStates, h]

/-- C11. Importing a list of sources in turn: an image's states come from the first source that knows it. -/
theorem import_first_wins (m : LayoutMap) (pre : List LayoutMap) (d : LayoutMap) (post : List LayoutMap)
    (img : Image) (vt : ViewType) (r : Range) (hm : m img.id = none) (hpre : ∀ x ∈ pre, x img.id = none)
    (hd : (d img.id).isSome) :
    ((pre ++ d :: post).foldl LayoutMap.addStates m).getState img vt r = d.getState img vt r := by
  have key : ∀ (l : List LayoutMap) (m : LayoutMap), ((l.foldl LayoutMap.addStates m) img.id)
      = ((m :: l).findSome? (fun x => x img.id)) := by
    intro l
    induction l with
    | nil => intro m; cases h : m img.id <;> simp [h]
    | cons x xs ih =>
      intro m
      rw [List.foldl_cons, ih]
      simp only [List.findSome?_cons, LayoutMap.addStates]
      cases m img.id <;> rfl
  have h1 : ((pre ++ d :: post).foldl LayoutMap.addStates m) img.id = d img.id := by
    rw [key, List.findSome?_cons, hm]
    simp only
    rw [List.findSome?_append, List.findSome?_eq_none_iff.2 hpre]
    obtain ⟨y, hy⟩ := Option.isSome_iff_exists.1 hd
    simp [hy]
  simp [LayoutMap.getState, h1]

example : (LayoutMap.empty exImg.id = none)
    ∧ ((LayoutMap.empty.setState exImg .d2Array exR exState) exImg.id).isSome := by
  simp [LayoutMap.empty, LayoutMap.setState]

end Verif
