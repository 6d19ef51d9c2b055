import Verif.Spec.Settle
import Verif.Props.Rebuild
/-
How the tracked state of a subresource, at a point of a recording, depends on what the graph remembers of it.
-/
namespace Verif.Settle
open Verif.Rec Verif.Att Verif.Run Verif.Gpu Verif.RPass

/-- The dependency: none (a fixed state, or untracked), the remembered state itself, or the remembered state if it has the layout
and stage of a state, else that state. -/
inductive Tr where
  | is (o : Option LayoutState)
  | looked
  | kept (w : LayoutState)

/-- A barrier to `w` is skipped in state `s`. -/
def alike (s w : LayoutState) : Prop := s.layout = w.layout ∧ s.state.stage = w.state.stage
instance (s w : LayoutState) : Decidable (alike s w) := inferInstanceAs (Decidable (_ ∧ _))

theorem alike_trans {a b c : LayoutState} (h : alike a b) (h' : alike b c) : alike a c := ⟨h.1.trans h'.1, h.2.trans h'.2⟩
theorem alike_symm {a b : LayoutState} (h : alike a b) : alike b a := ⟨h.1.symm, h.2.symm⟩

def guardOpt (w : LayoutState) : Option LayoutState → Option LayoutState
  | none => some w
  | some s => if alike s w then some s else some w

def lookOpt (input final : Option LayoutState) : Option LayoutState → Option LayoutState
  | some s => some s
  | none => match input with | some s => some s | none => final

def Tr.val : Tr → Option LayoutState → Option LayoutState
  | .is o, _ => o
  | .looked, x => x
  | .kept w, x => guardOpt w x

def Tr.guard (w : LayoutState) : Tr → Tr
  | .is o => .is (guardOpt w o)
  | .looked => .kept w
  | .kept w' => if alike w' w then .kept w' else .is (some w)

def Tr.look (input : Option LayoutState) : Tr → Tr
  | .is none => match input with | some s => .is (some s) | none => .looked
  | t => t

theorem guardOpt_pos {w s : LayoutState} (h : alike s w) : guardOpt w (some s) = some s := by simp [guardOpt, h]
theorem guardOpt_neg {w s : LayoutState} (h : ¬ alike s w) : guardOpt w (some s) = some w := by simp [guardOpt, h]

theorem guard_val (w : LayoutState) (t : Tr) (x : Option LayoutState) : (t.guard w).val x = guardOpt w (t.val x) := by
  cases t with
  | is o => rfl
  | looked => rfl
  | kept w' =>
    simp only [Tr.guard]
    by_cases h : alike w' w
    · rw [if_pos h]
      simp only [Tr.val]
      cases x with
      | none => exact (guardOpt_pos h).symm
      | some s =>
        by_cases h' : alike s w'
        · rw [guardOpt_pos h', guardOpt_pos (alike_trans h' h)]
        · rw [guardOpt_neg h', guardOpt_pos h]
    · rw [if_neg h]
      simp only [Tr.val]
      cases x with
      | none => exact (guardOpt_neg h).symm
      | some s =>
        by_cases h' : alike s w'
        · rw [guardOpt_pos h', guardOpt_neg fun h2 => h (alike_trans (alike_symm h') h2)]
        · rw [guardOpt_neg h', guardOpt_neg h]

theorem look_val (i : Option LayoutState) (t : Tr) (x : Option LayoutState) (h : t = .looked → i = none) :
    (t.look i).val x = lookOpt i x (t.val x) := by
  cases t with
  | is o =>
    cases o with
    | none => cases i <;> rfl
    | some s => rfl
  | looked =>
    rw [h rfl]
    cases x <;> rfl
  | kept w =>
    simp only [Tr.look, Tr.val]
    cases x with
    | none => rfl
    | some s => simp only [guardOpt]; split <;> rfl

/-- What a whole frame does to what is remembered, done twice, is the same as done once. -/
theorem val_val (t : Tr) (x : Option LayoutState) : t.val (t.val x) = t.val x := by
  cases t with
  | is o => rfl
  | looked => rfl
  | kept w =>
    simp only [Tr.val]
    cases x with
    | none => exact guardOpt_pos ⟨rfl, rfl⟩
    | some s =>
      by_cases h : alike s w
      · rw [guardOpt_pos h, guardOpt_pos h]
      · rw [guardOpt_neg h, guardOpt_pos ⟨rfl, rfl⟩]

/-- The states in it have an actual layout. -/
def Tr.Good : Tr → Prop
  | .is none | .looked => True
  | .is (some s) | .kept s => s.layout ≠ Layout.undefined

theorem Tr.good_guard {t : Tr} (h : t.Good) {w : LayoutState} (hw : w.layout ≠ Layout.undefined) : (t.guard w).Good := by
  cases t with
  | is o =>
    cases o with
    | none => exact hw
    | some s =>
      simp only [Tr.guard, guardOpt]
      split
      · exact h
      · exact hw
  | looked => exact hw
  | kept w' =>
    simp only [Tr.guard]
    split
    · exact h
    · exact hw

/-- Dependencies of all subresources. -/
abbrev Map := Nat → Nat → Nat → Tr

def upd (T : Map) (i : Nat) (rg : Range) (g : Tr → Tr) : Map := fun j l m => if j = i ∧ rg.Has l m then g (T j l m) else T j l m

variable {sepDS : Bool} {fmt : Nat → Nat} {V : View → Prop} {passes : List RunPass} {inp : LayoutMap} {out : Images}
  {base : Nat → Prop} {nx : LayoutMap}

/-- The dependencies are the same all over a view of the family. -/
structure Ok (V : View → Prop) (inp : LayoutMap) (T : Map) : Prop where
  uniform : ∀ v, V v → ∃ t : Tr, t.Good ∧ ∀ l m, v.range.Has l m → T v.image.id l m = t
  looked : ∀ i l m, T i l m = .looked → inp.at i l m = none

/-- What the recording context is but for the images. -/
def rest (c : Ctx) : Ctx := { c with images := LayoutMap.empty }

/-- The recording is as the dependencies say, given what the graph remembers. -/
structure Sim (base : Nat → Prop) (f : LayoutMap) (T : Map) (N : Ctx) (r : Rec) : Prop where
  cells : ∀ i l m, r.ctx.images.at i l m = (T i l m).val (f.at i l m)
  present : ∀ i, (r.ctx.images i).isSome = true ↔ base i ∨ ∃ l m, r.ctx.images.at i l m ≠ none
  rest : rest r.ctx = N

/-- The dependencies determine the context. -/
theorem sim_unique {f : LayoutMap} {T : Map} {N : Ctx} {r r' : Rec} (h : Sim base f T N r) (h' : Sim base f T N r') :
    r.ctx = r'.ctx := by
  have hi : r.ctx.images = r'.ctx.images := by
    funext i
    have hc : ∀ l m, r.ctx.images.at i l m = r'.ctx.images.at i l m := fun l m => by rw [h.cells, h'.cells]
    have hp : (r.ctx.images i).isSome = true ↔ (r'.ctx.images i).isSome = true := by
      rw [h.present, h'.present]
      simp only [hc]
    cases e : r.ctx.images i with
    | none =>
      cases e' : r'.ctx.images i with
      | none => rfl
      | some y => rw [e, e'] at hp; simp at hp
    | some x =>
      cases e' : r'.ctx.images i with
      | none => rw [e, e'] at hp; simp at hp
      | some y =>
        congr 1
        funext l m
        have := hc l m
        simpa [LayoutMap.at, e, e'] using this
  have hn := h.rest.trans h'.rest.symm
  unfold Settle.rest at hn
  cases hr : r.ctx
  cases hr' : r'.ctx
  rw [hr, hr'] at hn hi
  simp only [Ctx.mk.injEq] at hn hi ⊢
  exact ⟨hi, hn.2⟩

/-- A graph that remembers things view by view, with the given inputs and outputs. -/
structure Cond (V : View → Prop) (inp : LayoutMap) (out : Images) (G : GraphSt) : Prop where
  inputs : G.inputs = inp
  outputs : G.outputs = out
  final : ∀ v, V v → Whole G.final.images v

/-- The pending transitions are ordinary, and the announced layouts are those given. -/
structure NOk (V : View → Prop) (nx : LayoutMap) (N : Ctx) : Prop where
  pending : ∀ t ∈ N.implicit, ActionIn V t.action
  next : N.nextImages = nx

theorem getVirtual_adapt {v : View} (hv : v.viewType ≠ .d3) (format l m : Nat) :
    (getVirtualRange v.image v.viewType (adaptRange sepDS format v.range)).Has l m ↔ v.range.Has l m := by
  rw [virtual_plain _ _ hv]
  unfold adaptRange
  split <;> rfl

/-- Setting the states of a view. -/
theorem sim_set {v : View} (hne : v.range.NonEmpty) {f : LayoutMap} {T : Map} {N : Ctx} {r : Rec} (h : Sim base f T N r)
    (img : Image) (ty : ViewType) (rg : Range) (himg : img.id = v.image.id)
    (hrg : ∀ l m, (getVirtualRange img ty rg).Has l m ↔ v.range.Has l m)
    (s : LayoutState) (g : Tr → Tr) (hg : ∀ l m, v.range.Has l m → (g (T v.image.id l m)).val (f.at v.image.id l m) = some s)
    (cs : List Cmd) :
    Sim base f (upd T v.image.id v.range g) N ⟨r.ctx.setLayout img ty rg s, cs⟩ := by
  have hat : ∀ i l m, (r.ctx.setLayout img ty rg s).images.at i l m
      = if i = v.image.id ∧ v.range.Has l m then some s else r.ctx.images.at i l m := by
    intro i l m
    simp only [Ctx.setLayout, LayoutMap.at_setState, himg, hrg]
  refine ⟨?_, ?_, h.rest⟩
  · intro i l m
    show (r.ctx.setLayout img ty rg s).images.at i l m = _
    rw [hat]
    unfold upd
    split
    · rename_i hc
      obtain ⟨rfl, hl⟩ := hc
      exact (hg l m hl).symm
    · exact h.cells i l m
  · intro i
    show ((r.ctx.setLayout img ty rg s).images i).isSome = true ↔ base i ∨ ∃ l m, (r.ctx.setLayout img ty rg s).images.at i l m ≠ none
    by_cases hi : i = v.image.id
    · subst hi
      obtain ⟨l, m, hl⟩ := v.range.nonEmpty_iff.1 hne
      constructor
      · intro _
        exact Or.inr ⟨l, m, by rw [hat, if_pos ⟨rfl, hl⟩]; simp⟩
      · intro _
        simp [Ctx.setLayout, LayoutMap.setState, himg]
    · have e1 : (r.ctx.setLayout img ty rg s).images i = r.ctx.images i := by
        simp [Ctx.setLayout, LayoutMap.setState, himg, hi]
      rw [e1, h.present i]
      simp only [hat, hi, false_and, if_false]

theorem ok_upd (hT : Tidy sepDS fmt V) {T : Map} (hO : Ok V inp T) {v : View} (hv : V v) {g : Tr → Tr}
    (hg : ∀ t, t.Good → (∀ l m, v.range.Has l m → T v.image.id l m = t) → (g t).Good)
    (hl : ∀ l m, v.range.Has l m → g (T v.image.id l m) = .looked → inp.at v.image.id l m = none) :
    Ok V inp (upd T v.image.id v.range g) := by
  refine ⟨?_, ?_⟩
  · intro u hu
    obtain ⟨t, h1, h2⟩ := hO.uniform u hu
    rcases hT.apart u v hu hv with hap | hsame
    · refine ⟨t, h1, ?_⟩
      intro l m hl
      unfold upd
      rw [if_neg]
      · exact h2 l m hl
      · rintro ⟨h3, h4⟩
        rcases hap with h5 | h5
        · exact h5 h3
        · exact h5 l m ⟨hl, h4⟩
    · refine ⟨g t, hg t h1 fun l m hl => ?_, ?_⟩
      · rw [← hsame.1]; exact h2 l m ((hsame.2 l m).2 hl)
      · intro l m hl
        unfold upd
        rw [if_pos ⟨hsame.1, (hsame.2 l m).1 hl⟩, h2 l m hl]
  · intro i l m h
    unfold upd at h
    split at h
    · rename_i hc
      obtain ⟨rfl, hl'⟩ := hc
      exact hl l m hl' h
    · exact hO.looked i l m h

/-- The state of a view in a recording: untracked, or in a tracked state. -/
theorem sim_view {f : LayoutMap} {T : Map} {N : Ctx} {r : Rec} (hO : Ok V inp T) (h : Sim base f T N r)
    (hf : ∀ v, V v → Whole f v) {v : View} (hv : V v) : Whole r.ctx.images v := by
  obtain ⟨t, h1, h2⟩ := hO.uniform v hv
  have hc : ∀ l m, v.range.Has l m → r.ctx.images.at v.image.id l m = t.val (f.at v.image.id l m) :=
    fun l m hl => by rw [h.cells, h2 l m hl]
  cases t with
  | is o =>
    cases o with
    | none => exact Or.inl hc
    | some s => exact Or.inr ⟨s, h1, hc⟩
  | looked =>
    rcases hf v hv with h3 | ⟨s, h3, h4⟩
    · exact Or.inl fun l m hl => (hc l m hl).trans (h3 l m hl)
    · exact Or.inr ⟨s, h3, fun l m hl => (hc l m hl).trans (h4 l m hl)⟩
  | kept w =>
    rcases hf v hv with h3 | ⟨s, h3, h4⟩
    · exact Or.inr ⟨w, h1, fun l m hl => by rw [hc l m hl, h3 l m hl]; rfl⟩
    · by_cases ha : alike s w
      · exact Or.inr ⟨s, h3, fun l m hl => by rw [hc l m hl, h4 l m hl]; simp [Tr.val, guardOpt, ha]⟩
      · exact Or.inr ⟨w, h1, fun l m hl => by rw [hc l m hl, h4 l m hl]; simp [Tr.val, guardOpt, ha]⟩

/-- What a barrier does to the dependency. -/
def barrierTr (w : LayoutState) (force : Bool) (t : Tr) : Tr := if force then .is (some w) else t.guard w

theorem ok_barrier (hT : Tidy sepDS fmt V) {T : Map} (hO : Ok V inp T) {v : View} (hv : V v) {w : LayoutState}
    (hw : w.layout ≠ Layout.undefined) (force : Bool) : Ok V inp (upd T v.image.id v.range (barrierTr w force)) := by
  refine ok_upd hT hO hv ?_ ?_
  · intro t ht _
    unfold barrierTr
    split
    · exact hw
    · exact Tr.good_guard ht hw
  · intro l m _ h
    unfold barrierTr at h
    split at h
    · simp at h
    · cases hx : T v.image.id l m with
      | is o => rw [hx] at h; simp [Tr.guard] at h
      | looked => rw [hx] at h; simp [Tr.guard] at h
      | kept w' => rw [hx] at h; simp only [Tr.guard] at h; split at h <;> simp at h

theorem sim_barrier (hT : Tidy sepDS fmt V) (hne : ∀ v, V v → v.range.NonEmpty) (en : Nat → Bool) {f : LayoutMap} {T : Map}
    {N : Ctx} {r : Rec} (hO : Ok V inp T) (hf : ∀ v, V v → Whole f v) (h : Sim base f T N r) {v : View} (hv : V v) (i : Nat)
    {w : LayoutState} (hw : w.layout ≠ Layout.undefined) (force : Bool)
    (hi : i = Layout.undefined ∨ ∃ s : LayoutState, s.layout ≠ Layout.undefined ∧ UniformState r.ctx.images v.image.id v.range s) :
    Sim base f (upd T v.image.id v.range (barrierTr w force)) N (r.viewBarrier ⟨sepDS, en⟩ v i w force) := by
  have hd3 := hT.view v hv
  have e : r.viewBarrier ⟨sepDS, en⟩ v i w force = r.viewBarrier ⟨sepDS, en⟩ v Layout.undefined w force := by
    rcases hi with rfl | ⟨s, hs, hu⟩
    · rfl
    · exact barrier_tracked_initial _ r v hd3 (hne v hv) s hs hu _ _ w force
  rw [e]
  unfold Rec.viewBarrier
  have hst : (∀ l m, v.range.Has l m → r.ctx.images.at v.image.id l m = none)
        ∧ (r.ctx.images.getState v.image v.viewType (adaptRange sepDS v.image.format v.range)).layout = Layout.undefined
      ∨ ∃ s : LayoutState, s.layout ≠ Layout.undefined ∧ (∀ l m, v.range.Has l m → r.ctx.images.at v.image.id l m = some s)
        ∧ r.ctx.images.getState v.image v.viewType (adaptRange sepDS v.image.format v.range) = s := by
    rcases sim_view hO h hf hv with h1 | ⟨s, h1, h2⟩
    · left
      refine ⟨h1, getState_none fun l k hl => h1 l k ((getVirtual_adapt hd3 _ l k).1 hl)⟩
    · right
      refine ⟨s, h1, h2, ?_⟩
      obtain ⟨l0, m0, h0⟩ := v.range.nonEmpty_iff.1 (hne v hv)
      apply LayoutMap.getState_uniform
      · exact ⟨l0, m0, (getVirtual_adapt hd3 _ l0 m0).2 h0, by rw [h2 _ _ h0]; rfl⟩
      · intro l k t h3 h4
        rw [h2 _ _ ((getVirtual_adapt hd3 _ l k).1 h3)] at h4
        simpa using h4.symm
  have hval : ∀ l m, v.range.Has l m → (T v.image.id l m).val (f.at v.image.id l m) = r.ctx.images.at v.image.id l m :=
    fun l m _ => (h.cells _ l m).symm
  obtain ⟨src, hsrc, ⟨hc, eq⟩ | ⟨hc, eq⟩⟩ := imageBarrier_cases ⟨sepDS, en⟩ r v.image v.viewType v.range Layout.undefined w force
  · rw [eq]
    refine sim_set (hne v hv) h _ _ _ rfl (fun l m => getVirtual_adapt hd3 _ l m) w _ ?_ _
    intro l m hl
    unfold barrierTr
    cases force with
    | true => rfl
    | false =>
      simp only [Bool.false_eq_true, if_false, guard_val, hval l m hl]
      rcases hst with ⟨h1, h2⟩ | ⟨s, h1, h2, h3⟩
      · rw [h1 l m hl]; rfl
      · rw [h2 l m hl]
        rw [h3, if_neg h1] at hsrc
        subst hsrc
        simp only [Bool.false_eq_true, false_or] at hc
        simp only [guardOpt]
        rw [if_neg]
        rintro ⟨h4, h5⟩
        exact hc.1.elim (fun h6 => h6 h4) (fun h6 => h6 h5)
  · rw [eq]
    refine ⟨?_, h.present, h.rest⟩
    intro j l m
    unfold upd
    split
    · rename_i hj
      obtain ⟨rfl, hl⟩ := hj
      cases force with
      | true => exact absurd (Or.inl rfl) hc
      | false =>
        simp only [Bool.false_eq_true, false_or] at hc
        have hc' : src.layout = w.layout ∧ src.state.stage = w.state.stage :=
          ⟨Classical.byContradiction fun h2 => hc ⟨Or.inl h2, hw⟩, Classical.byContradiction fun h2 => hc ⟨Or.inr h2, hw⟩⟩
        simp only [barrierTr, Bool.false_eq_true, if_false, guard_val, hval l m hl]
        rcases hst with ⟨h1, h2⟩ | ⟨s, h1, h2, h3⟩
        · rw [h2, if_pos rfl] at hsrc
          subst hsrc
          exact absurd hc'.1.symm hw
        · rw [h2 l m hl]
          rw [h3, if_neg h1] at hsrc
          subst hsrc
          simp only [guardOpt]
          rw [if_pos ⟨hc'.1, hc'.2⟩]
    · exact h.cells j l m

theorem sim_same {f : LayoutMap} {T : Map} {N : Ctx} {r : Rec} (h : Sim base f T N r) {i : Nat} {rg : Range} {g : Tr → Tr}
    (hg : ∀ l m, rg.Has l m → (g (T i l m)).val (f.at i l m) = r.ctx.images.at i l m) : Sim base f (upd T i rg g) N r := by
  refine ⟨?_, h.present, h.rest⟩
  intro j l m
  unfold upd
  split
  · rename_i hj
    obtain ⟨rfl, hl⟩ := hj
    exact (hg l m hl).symm
  · exact h.cells j l m

theorem whole_inputs (hin : ∀ v, V v → Whole inp v) {v : View} (hv : V v) :
    ∃ I : Option LayoutState, (∀ l m, v.range.Has l m → inp.at v.image.id l m = I)
      ∧ ∀ s, I = some s → s.layout ≠ Layout.undefined := by
  rcases hin v hv with h | ⟨s, h1, h2⟩
  · exact ⟨none, h, by simp⟩
  · exact ⟨some s, h2, by rintro _ ⟨⟩; exact h1⟩

theorem ok_look (hT : Tidy sepDS fmt V) {T : Map} (hO : Ok V inp T) {v : View} (hv : V v) {I : Option LayoutState}
    (hI : ∀ l m, v.range.Has l m → inp.at v.image.id l m = I) (hIg : ∀ s, I = some s → s.layout ≠ Layout.undefined) :
    Ok V inp (upd T v.image.id v.range (Tr.look I)) := by
  refine ok_upd hT hO hv ?_ ?_
  · intro t ht _
    cases t with
    | is o =>
      cases o with
      | none =>
        cases I with
        | none => exact trivial
        | some s => exact hIg s rfl
      | some s => exact ht
    | looked => exact trivial
    | kept w => exact ht
  · intro l m hl h
    cases hx : T v.image.id l m with
    | is o =>
      rw [hx] at h
      cases o with
      | none =>
        rw [hI l m hl]
        cases I with
        | none => rfl
        | some s => simp [Tr.look] at h
      | some s => simp [Tr.look] at h
    | looked => exact hO.looked _ l m hx
    | kept w => rw [hx] at h; simp [Tr.look] at h

theorem sim_look (hT : Tidy sepDS fmt V) (hne : ∀ v, V v → v.range.NonEmpty) {T : Map} {N : Ctx} {r : Rec} {G : GraphSt}
    (hG : Cond V inp out G) (hO : Ok V inp T) (h : Sim base G.final.images T N r) {v : View} (hv : V v) {I : Option LayoutState}
    (hI : ∀ l m, v.range.Has l m → inp.at v.image.id l m = I) (hIg : ∀ s, I = some s → s.layout ≠ Layout.undefined) :
    Sim base G.final.images (upd T v.image.id v.range (Tr.look I)) N { r with ctx := (getCurrentLayoutState G r.ctx v).2 }
    ∧ ((getCurrentLayoutState G r.ctx v).1.layout = Layout.undefined
      ∨ ∃ s : LayoutState, s.layout ≠ Layout.undefined
        ∧ UniformState (getCurrentLayoutState G r.ctx v).2.images v.image.id v.range s) := by
  have hd3 := hT.view v hv
  have hval : ∀ l m, v.range.Has l m → (T v.image.id l m).val (G.final.images.at v.image.id l m) = r.ctx.images.at v.image.id l m :=
    fun l m _ => (h.cells _ l m).symm
  have hlook : ∀ l m, v.range.Has l m → ((T v.image.id l m).look I).val (G.final.images.at v.image.id l m)
      = lookOpt I (G.final.images.at v.image.id l m) (r.ctx.images.at v.image.id l m) := by
    intro l m hl
    rw [look_val, hval l m hl]
    intro ht
    rw [← hI l m hl]
    exact hO.looked _ l m ht
  have hset : ∀ s : LayoutState, (∀ l m, v.range.Has l m → ((T v.image.id l m).look I).val (G.final.images.at v.image.id l m) = some s) →
      Sim base G.final.images (upd T v.image.id v.range (Tr.look I)) N { r with ctx := r.ctx.setLayout v.image v.viewType v.range s }
      ∧ UniformState (r.ctx.setLayout v.image v.viewType v.range s).images v.image.id v.range s := by
    intro s hs
    refine ⟨sim_set (hne v hv) h _ _ _ rfl (fun l m => by rw [virtual_plain _ _ hd3]) s _ hs _, ?_⟩
    intro l k hl
    simp only [Ctx.setLayout, LayoutMap.at_setState, virtual_plain _ _ hd3]
    rw [if_pos ⟨trivial, hl⟩]
  unfold getCurrentLayoutState
  rcases sim_view hO h hG.final hv with hu | ⟨s, hs, hu⟩
  · have e1 : (r.ctx.images.getState v.image v.viewType v.range).layout = Layout.undefined := getState_plain_none hd3 hu
    simp only [e1, if_true]
    cases hI' : I with
    | none =>
      have e2 : (G.inputs.getState v.image v.viewType v.range).layout = Layout.undefined :=
        getState_plain_none hd3 fun l m hl => by rw [hG.inputs, hI l m hl, hI']
      simp only [e2, ne_eq, not_true_eq_false, if_false, if_true]
      rw [hI'] at hlook hset
      rcases hG.final v hv with hf | ⟨s, hs, hf⟩
      · have e3 : (G.final.images.getState v.image v.viewType v.range).layout = Layout.undefined := getState_plain_none hd3 hf
        simp only [e3, not_true_eq_false, if_false]
        refine ⟨sim_same h fun l m hl => ?_, Or.inl trivial⟩
        rw [hlook l m hl, hu l m hl, hf l m hl]
        rfl
      · have e3 := getState_plain_uniform hd3 (hne v hv) hf
        simp only [e3, hs, not_false_eq_true, if_true]
        obtain ⟨h1, h2⟩ := hset s fun l m hl => by rw [hlook l m hl, hu l m hl, hf l m hl]; rfl
        exact ⟨h1, Or.inr ⟨s, hs, h2⟩⟩
    | some s =>
      have hs := hIg s hI'
      have e2 := getState_plain_uniform (m := G.inputs) hd3 (hne v hv) (s := s) fun l m hl => by rw [hG.inputs, hI l m hl, hI']
      simp only [e2, ne_eq, hs, not_false_eq_true, if_true, if_false]
      rw [hI'] at hlook hset
      obtain ⟨h1, h2⟩ := hset s fun l m hl => by rw [hlook l m hl, hu l m hl]; rfl
      exact ⟨h1, Or.inr ⟨s, hs, h2⟩⟩
  · have e1 := getState_plain_uniform hd3 (hne v hv) hu
    simp only [e1, hs, if_false]
    refine ⟨sim_same h fun l m hl => ?_, Or.inr ⟨s, hs, hu⟩⟩
    rw [hlook l m hl, hu l m hl]
    rfl

/-! ### Steps -/

/-- From recordings as `T`, `N` say, the step leads to recordings as `T'`, `N'` say. -/
def Step (base : Nat → Prop) (V : View → Prop) (inp : LayoutMap) (out : Images) (T : Map) (N : Ctx) (S : GraphSt → Rec → Rec)
    (T' : Map) (N' : Ctx) : Prop :=
  ∀ G r, Cond V inp out G → Sim base G.final.images T N r → Sim base G.final.images T' N' (S G r)

theorem Step.comp {T T' T'' : Map} {N N' N'' : Ctx} {S S' : GraphSt → Rec → Rec} (h : Step base V inp out T N S T' N')
    (h' : Step base V inp out T' N' S' T'' N'') : Step base V inp out T N (fun G r => S' G (S G r)) T'' N'' :=
  fun G r hG hs => h' G _ hG (h G r hG hs)

/-- There are such `T'` and `N'`. -/
def Steps (base : Nat → Prop) (V : View → Prop) (inp : LayoutMap) (out : Images) (nx : LayoutMap) (T : Map) (N : Ctx)
    (S : GraphSt → Rec → Rec) : Prop :=
  ∃ T' N', Ok V inp T' ∧ NOk V nx N' ∧ Step base V inp out T N S T' N'

theorem Steps.comp {T : Map} {N : Ctx} {S S' : GraphSt → Rec → Rec} (h : Steps base V inp out nx T N S)
    (h' : ∀ T N, Ok V inp T → NOk V nx N → Steps base V inp out nx T N S') :
    Steps base V inp out nx T N (fun G r => S' G (S G r)) := by
  obtain ⟨T1, N1, h1, h2, h3⟩ := h
  obtain ⟨T2, N2, h4, h5, h6⟩ := h' T1 N1 h1 h2
  exact ⟨T2, N2, h4, h5, h3.comp h6⟩

theorem sim_emit {f : LayoutMap} {T : Map} {N : Ctx} {r : Rec} (h : Sim base f T N r) (c : Cmd) : Sim base f T N (r.emit c) :=
  ⟨h.cells, h.present, h.rest⟩

theorem steps_emit {T : Map} {N : Ctx} (hO : Ok V inp T) (hN : NOk V nx N) (c : Cmd) :
    Steps base V inp out nx T N (fun _ r => r.emit c) := ⟨T, N, hO, hN, fun _ _ _ h => sim_emit h c⟩

theorem steps_id {T : Map} {N : Ctx} (hO : Ok V inp T) (hN : NOk V nx N) :
    Steps base V inp out nx T N (fun _ r => r) := ⟨T, N, hO, hN, fun _ _ _ h => h⟩

theorem steps_barrier (hT : Tidy sepDS fmt V) (hne : ∀ v, V v → v.range.NonEmpty) (en : Nat → Bool) {T : Map} {N : Ctx}
    (hO : Ok V inp T) (hN : NOk V nx N) {v : View} (hv : V v) {w : LayoutState} (hw : w.layout ≠ Layout.undefined) (force : Bool) :
    Steps base V inp out nx T N (fun _ r => r.viewBarrier ⟨sepDS, en⟩ v Layout.undefined w force) :=
  ⟨_, N, ok_barrier hT hO hv hw force, hN, fun _ _ hG h => sim_barrier hT hne en hO hG.final h hv _ hw force (Or.inl rfl)⟩

theorem steps_finalBarrier (hT : Tidy sepDS fmt V) (hne : ∀ v, V v → v.range.NonEmpty) (en : Nat → Bool) {T : Map} {N : Ctx}
    (hO : Ok V inp T) (hN : NOk V nx N) {v : View} (hv : V v) (final : Nat) :
    Steps base V inp out nx T N (fun _ r => r.finalBarrier ⟨sepDS, en⟩ v final) := by
  unfold Rec.finalBarrier
  by_cases h : (final != Layout.undefined) = true
  · simp only [h, if_true]
    exact steps_barrier hT hne en hO hN hv (by simpa [makeLayoutState] using h) false
  · simp only [h]
    exact steps_id hO hN

/-- A step that doesn't touch the images. -/
theorem steps_other {T : Map} {N : Ctx} (hO : Ok V inp T) (N' : Ctx) (hN' : NOk V nx N') (S : GraphSt → Rec → Rec)
    (hi : ∀ G (r : Rec), (S G r).ctx.images = r.ctx.images)
    (hr : ∀ G (r : Rec), Cond V inp out G → rest r.ctx = N → rest (S G r).ctx = N') : Steps base V inp out nx T N S := by
  refine ⟨T, N', hO, hN', ?_⟩
  intro G r hG h
  exact ⟨by rw [hi]; exact h.cells, by rw [hi]; exact h.present, hr G r hG h.rest⟩

theorem steps_runImplicit (hT : Tidy sepDS fmt V) (hne : ∀ v, V v → v.range.NonEmpty) (en : Nat → Bool) :
    ∀ (n : Nat) (T : Map) (N : Ctx) (v : View), N.implicit.length = n → Ok V inp T → NOk V nx N →
      Steps base V inp out nx T N (fun _ r => r.runImplicit ⟨sepDS, en⟩ v) := by
  intro n
  induction n using Nat.strongRecOn with
  | ind n ih =>
    intro T N v hn hO hN
    have himp : ∀ {r : Rec}, rest r.ctx = N → r.ctx.implicit = N.implicit := by rintro r rfl; rfl
    cases hf : N.implicit.find? (Implicit.isFor v) with
    | none =>
      refine ⟨T, N, hO, hN, ?_⟩
      intro G r hG h
      simp only
      rw [runImplicit_none _ _ _ (by rw [himp h.rest]; exact hf)]
      exact h
    | some t =>
      have hlt := eraseP_lt hf
      have hmem := List.mem_of_find?_eq_some hf
      have hact := hN.pending t hmem
      have hN1 : NOk V nx { N with implicit := N.implicit.eraseP (Implicit.isFor v) } :=
        ⟨fun u hu => hN.pending u (List.mem_of_mem_eraseP hu), hN.next⟩
      have hE : Step base V inp out T N
          (fun _ r => { r with ctx := { r.ctx with implicit := r.ctx.implicit.eraseP (Implicit.isFor v) } }) T
          { N with implicit := N.implicit.eraseP (Implicit.isFor v) } := by
        intro G r hG h
        exact ⟨h.cells, h.present, by rw [← h.rest]; rfl⟩
      have key : Steps base V inp out nx T { N with implicit := N.implicit.eraseP (Implicit.isFor v) } (fun _ r1 =>
          if en t.pass then r1
          else match t.action with
            | .nothing => r1
            | .user k => r1.emit (.user k)
            | .copy src dst w h final => (Rec.runImplicit ⟨sepDS, en⟩ r1 src).doCopy ⟨sepDS, en⟩ src dst w h final
            | .blit src dst sx sy sw sh dx dy dw dh filter final =>
              (Rec.runImplicit ⟨sepDS, en⟩ r1 src).doBlit ⟨sepDS, en⟩ src dst sx sy sw sh dx dy dw dh filter final
            | .clear dst value final => r1.doClear ⟨sepDS, en⟩ dst value final) := by
        by_cases he : en t.pass = true
        · simp only [he, if_true]
          exact steps_id hO hN1
        · have he' : en t.pass = false := by simpa using he
          simp only [he', Bool.false_eq_true, if_false]
          cases ha : t.action with
          | nothing => exact steps_id hO hN1
          | user k => exact steps_emit hO hN1 _
          | copy src dst w h final =>
            rw [ha] at hact
            refine (ih _ (by rw [← hn]; exact hlt) T _ src rfl hO hN1).comp (S' := fun _ r => r.doCopy ⟨sepDS, en⟩ src dst w h final) fun T N hO hN => ?_
            unfold Rec.doCopy
            exact (((steps_barrier hT hne en hO hN hact.1 (by decide) false).comp fun T N hO hN =>
              steps_barrier hT hne en hO hN hact.2.1 (by decide) false).comp fun T N hO hN =>
              steps_emit hO hN _).comp fun T N hO hN => steps_finalBarrier hT hne en hO hN hact.2.1 final
          | blit src dst sx sy sw sh dx dy dw dh filter final =>
            rw [ha] at hact
            refine (ih _ (by rw [← hn]; exact hlt) T _ src rfl hO hN1).comp (S' := fun _ r => r.doBlit ⟨sepDS, en⟩ src dst sx sy sw sh dx dy dw dh filter final) fun T N hO hN => ?_
            unfold Rec.doBlit
            exact (((steps_barrier hT hne en hO hN hact.1 (by decide) false).comp fun T N hO hN =>
              steps_barrier hT hne en hO hN hact.2.1 (by decide) false).comp fun T N hO hN =>
              steps_emit hO hN _).comp fun T N hO hN => steps_finalBarrier hT hne en hO hN hact.2.1 final
          | clear dst value final =>
            rw [ha] at hact
            unfold Rec.doClear
            exact ((steps_barrier hT hne en hO hN1 hact (by decide) false).comp fun T N hO hN =>
              steps_emit hO hN _).comp fun T N hO hN => steps_finalBarrier hT hne en hO hN hact final
      obtain ⟨T', N', h1, h2, h3⟩ := key
      refine ⟨T', N', h1, h2, ?_⟩
      intro G r hG h
      simp only
      rw [runImplicit_some _ _ _ t (by rw [himp h.rest]; exact hf)]
      exact h3 G _ hG (hE G r hG h)

/-- A buffer barrier is recorded. -/
def bufGoes (cur i w : AccessState) (force : Bool) : Bool :=
  let src := if cur.stage = Stage.bottomOfPipe then i else cur
  force || (src.access != w.access || src.stage != w.stage)

theorem bufferBarrier_ctx (r : Rec) (b o s : Nat) (i w : AccessState) (force : Bool) :
    (r.bufferBarrier b o s i w force).ctx
      = if bufGoes (r.ctx.getAccess b) i w force = true then r.ctx.setAccess b w else r.ctx := by
  unfold Rec.bufferBarrier bufGoes
  simp only
  generalize (if (r.ctx.getAccess b).stage = Stage.bottomOfPipe then i else r.ctx.getAccess b) = src
  split <;> rfl

theorem steps_bufferBarrier {T : Map} {N : Ctx} (hO : Ok V inp T) (hN : NOk V nx N) (b o s : Nat) (i : Rec → AccessState)
    (hi : ∀ r r' : Rec, rest r.ctx = rest r'.ctx → i r = i r') (w : AccessState) (force : Bool) :
    Steps base V inp out nx T N (fun _ r => r.bufferBarrier b o s (i r) w force) := by
  refine steps_other hO (if bufGoes (N.getAccess b) (i ⟨N, []⟩) w force = true then N.setAccess b w else N) ?_ _ ?_ ?_
  · split
    · exact ⟨hN.pending, hN.next⟩
    · exact hN
  · intro G r
    simp only [bufferBarrier_ctx]
    split <;> rfl
  · rintro G r hG rfl
    simp only [bufferBarrier_ctx]
    rw [hi ⟨rest r.ctx, []⟩ r rfl]
    show _ = if bufGoes (r.ctx.getAccess b) _ w force = true then _ else _
    split <;> rfl

end Verif.Settle
