import Verif.Spec.Hazards
import Verif.Props.Flow
import Verif.Props.Waits
/-
C97: transfers and sampling of an image are ordered.
-/
namespace Verif.Haz
open Verif.Rec Verif.Att Verif.Run Verif.Gpu

/-! ### What is kept true of a recording -/

/-- The command is as expected for image `i`: barriers have the scopes of usual states, transfers name the transfer layouts,
no render pass draws to it. -/
def CmdWell (i : Nat) : Cmd → Prop
  | .imageBarrier img _ src dst old new =>
    img = i → (old = Layout.undefined ∨ (⟨old, src⟩ : LayoutState) ∈ usual) ∧ (⟨new, dst⟩ : LayoutState) ∈ usual
  | .copyImage _ sl _ _ dl _ _ _ _ | .blitImage _ sl _ _ _ dl _ _ _ => sl = Layout.transferSrc ∧ dl = Layout.transferDst
  | .copyBufferToImage _ _ _ dl _ _ _ _ _ _ _ | .clearImage _ _ dl _ _ => dl = Layout.transferDst
  | .copyImageToBuffer _ sl _ _ _ _ _ _ _ _ _ => sl = Layout.transferSrc
  | .beginPass atts _ _ _ | .endPass atts => ∀ x ∈ atts, x.image ≠ i
  | _ => True

structure Std (i : Nat) (r : Rec) : Prop where
  tracked : MapWell i r.ctx.images
  pending : ∀ t ∈ r.ctx.implicit, ActionWell i t.action
  cmds : ∀ k ∈ r.cmds, CmdWell i k

variable {i : Nat}

theorem usual_same {s t : LayoutState} (hs : s ∈ usual) (ht : t ∈ usual) (h : s.layout = t.layout) : s = t := by
  simp only [usual, List.mem_cons, List.not_mem_nil, or_false] at hs ht
  rcases hs with rfl | rfl | rfl <;> rcases ht with rfl | rfl | rfl <;> first | rfl | (exact absurd h (by decide))

theorem usual_made {s : LayoutState} (hs : s ∈ usual) : makeLayoutState s.layout = s := by
  simp only [usual, List.mem_cons, List.not_mem_nil, or_false] at hs
  rcases hs with rfl | rfl | rfl <;> decide

theorem usual_defined {s : LayoutState} (hs : s ∈ usual) : s.layout ≠ Layout.undefined := by
  simp only [usual, List.mem_cons, List.not_mem_nil, or_false] at hs
  rcases hs with rfl | rfl | rfl <;> decide

theorem usual_stage {s : LayoutState} (hs : s ∈ usual) : HasStage s.state := by
  simp only [usual, List.mem_cons, List.not_mem_nil, or_false] at hs
  rcases hs with rfl | rfl | rfl <;> decide

theorem ends_made {x : Nat} (h : EndsWell x) (hx : x ≠ Layout.undefined) : makeLayoutState x ∈ usual := by
  rcases h with h | ⟨s, hs, rfl⟩
  · exact absurd h hx
  · rw [usual_made hs]; exact hs

theorem near_ends {s : LayoutState} (h : Near s) : EndsWell s.layout ∧ s.layout ≠ Layout.undefined := by
  obtain ⟨⟨t, ht, e⟩, -⟩ := h
  exact ⟨Or.inr ⟨t, ht, e⟩, by rw [← e]; exact usual_defined ht⟩

theorem accesses_usual {s : LayoutState} (h : Near s) : (⟨s.layout, accessesIn s.layout⟩ : LayoutState) ∈ usual := by
  obtain ⟨⟨t, ht, e⟩, -⟩ := h
  rw [← e]
  simp only [usual, List.mem_cons, List.not_mem_nil, or_false] at ht
  rcases ht with rfl | rfl | rfl <;> decide

/-- What a sampled attachment declares is what is done in its layout. -/
theorem accesses_sampled {s : LayoutState} (h : Near s) (h5 : s.layout = Layout.shaderReadOnly) : accessesIn s.layout = s.state := by
  rw [h.2 h5, h5]; decide

theorem usual_src : makeLayoutState Layout.transferSrc ∈ usual := by decide
theorem usual_dst : makeLayoutState Layout.transferDst ∈ usual := by decide
theorem usual_clear : clearState ∈ usual := by decide
theorem usual_mip : Mip.srcState ∈ usual := by decide

theorem emplace_usual {s : LayoutState} (hs : s ∈ usual) : ∀ (acc : List LayoutState), (∀ t ∈ acc, t ∈ usual) →
    ∀ t ∈ emplaceState s acc, t ∈ usual
  | [], _, t, ht => by
    simp only [emplaceState, List.mem_singleton] at ht
    subst ht; exact hs
  | u :: acc, h, t, ht => by
    unfold emplaceState at ht
    split at ht
    · rcases List.mem_cons.1 ht with rfl | ht
      · exact hs
      · exact h t ht
    · split at ht
      · rename_i hlt heq
        have hu := h u (by simp)
        have := usual_same hs hu heq
        subst this
        rcases List.mem_cons.1 ht with rfl | ht
        · simp only [Nat.or_self]; exact hs
        · exact h t (by simp [ht])
      · rcases List.mem_cons.1 ht with rfl | ht
        · exact h t (by simp)
        · exact emplace_usual hs acc (fun x hx => h x (by simp [hx])) t ht

theorem foldl_usual : ∀ (fs acc : List LayoutState), (∀ t ∈ fs, t ∈ usual) → (∀ t ∈ acc, t ∈ usual) →
    ∀ t ∈ fs.foldl (fun acc s => emplaceState s acc) acc, t ∈ usual
  | [], _, _, h => h
  | s :: fs, acc, h1, h2 => foldl_usual fs _ (fun t ht => h1 t (by simp [ht])) (emplace_usual (h1 s (by simp)) acc h2)

/-- Reading a map of usual states gives nothing or a usual state. -/
theorem get_usual {m : LayoutMap} (h : MapWell i m) {img : Image} (hi : img.id = i) (vt : ViewType) (rg : Range) :
    (m.getState img vt rg).layout = Layout.undefined ∨ m.getState img vt rg ∈ usual := by
  unfold MapWell LayoutMap.at at h
  unfold LayoutMap.getState
  rw [hi]
  cases hm : m i with
  | none => exact Or.inl rfl
  | some x =>
    simp only [hm] at h ⊢
    unfold getSubresourceRangeLayout
    have := foldl_usual (foundStates x (getVirtualRange img vt rg)) [] (by
      intro t ht
      obtain ⟨l, v, h1, h2⟩ := mem_foundStates.1 ht
      exact h l v t h2) (by simp)
    cases hf : (foundStates x (getVirtualRange img vt rg)).foldl (fun acc s => emplaceState s acc) [] with
    | nil => exact Or.inl rfl
    | cons s ss => rw [hf] at this; exact Or.inr (this s (by simp))

theorem emplace_near {s : LayoutState} (hs : Near s) : ∀ (acc : List LayoutState), (∀ t ∈ acc, Near t) →
    ∀ t ∈ emplaceState s acc, Near t
  | [], _, t, ht => by
    simp only [emplaceState, List.mem_singleton] at ht
    subst ht; exact hs
  | u :: acc, h, t, ht => by
    unfold emplaceState at ht
    split at ht
    · rcases List.mem_cons.1 ht with rfl | ht
      · exact hs
      · exact h t ht
    · split at ht
      · rename_i hlt heq
        have hu := h u (by simp)
        rcases List.mem_cons.1 ht with rfl | ht
        · refine ⟨hu.1, fun h5 => ?_⟩
          have e1 := hu.2 h5
          have e2 := hs.2 (heq.trans h5)
          simp only [e1, e2, Nat.or_self]
        · exact h t (by simp [ht])
      · rcases List.mem_cons.1 ht with rfl | ht
        · exact h t (by simp)
        · exact emplace_near hs acc (fun x hx => h x (by simp [hx])) t ht

theorem foldl_near : ∀ (fs acc : List LayoutState), (∀ t ∈ fs, Near t) → (∀ t ∈ acc, Near t) →
    ∀ t ∈ fs.foldl (fun acc s => emplaceState s acc) acc, Near t
  | [], _, _, h => h
  | s :: fs, acc, h1, h2 => foldl_near fs _ (fun t ht => h1 t (by simp [ht])) (emplace_near (h1 s (by simp)) acc h2)

theorem get_near {m : LayoutMap} (h : MapNear i m) {img : Image} (hi : img.id = i) (vt : ViewType) (rg : Range) :
    (m.getState img vt rg).layout = Layout.undefined ∨ Near (m.getState img vt rg) := by
  unfold MapNear LayoutMap.at at h
  unfold LayoutMap.getState
  rw [hi]
  cases hm : m i with
  | none => exact Or.inl rfl
  | some x =>
    simp only [hm] at h ⊢
    unfold getSubresourceRangeLayout
    have := foldl_near (foundStates x (getVirtualRange img vt rg)) [] (by
      intro t ht
      obtain ⟨l, v, h1, h2⟩ := mem_foundStates.1 ht
      exact h l v t h2) (by simp)
    cases hf : (foundStates x (getVirtualRange img vt rg)).foldl (fun acc s => emplaceState s acc) [] with
    | nil => exact Or.inl rfl
    | cons s ss => rw [hf] at this; exact Or.inr (this s (by simp))

theorem near_usual {s : LayoutState} (h : Near s) (h1 : s.layout ≠ Layout.transferSrc) (h2 : s.layout ≠ Layout.transferDst) :
    s ∈ usual := by
  obtain ⟨⟨t, ht, e⟩, h5⟩ := h
  have hl : s.layout = Layout.shaderReadOnly := by
    simp only [usual, List.mem_cons, List.not_mem_nil, or_false] at ht
    rcases ht with rfl | rfl | rfl
    · exact absurd e.symm h1
    · exact absurd e.symm h2
    · exact e.symm
  have : s = ⟨Layout.shaderReadOnly, sampling⟩ := by
    obtain ⟨sl, ss⟩ := s
    simp only at hl h5
    rw [h5 hl, hl]
  rw [this]
  decide

theorem map_set {m : LayoutMap} (h : MapWell i m) (img : Image) (vt : ViewType) (rg : Range) {s : LayoutState}
    (hs : img.id = i → s ∈ usual) : MapWell i (m.setState img vt rg s) := by
  intro l k t ht
  rw [LayoutMap.at_setState] at ht
  split at ht
  · rename_i hc
    cases ht
    exact hs hc.1.symm
  · exact h l k t ht

/-! ### Every step keeps it -/

theorem std_emit {r : Rec} (h : Std i r) {c : Cmd} (hc : CmdWell i c) : Std i (r.emit c) := by
  refine ⟨h.tracked, h.pending, ?_⟩
  intro k hk
  simp only [Rec.emit, List.mem_append, List.mem_singleton] at hk
  rcases hk with hk | rfl
  · exact h.cmds k hk
  · exact hc

theorem std_ctx {r : Rec} (h : Std i r) {c : Ctx} (h1 : MapWell i c.images) (h2 : ∀ t ∈ c.implicit, ActionWell i t.action) :
    Std i { r with ctx := c } := ⟨h1, h2, h.cmds⟩

theorem std_imageBarrier (env : Env) {r : Rec} (h : Std i r) (img : Image) (vt : ViewType) (sub : Range) (initial : Nat)
    (wanted : LayoutState) (force : Bool) (hw : img.id = i → wanted ∈ usual) (hi : img.id = i → EndsWell initial) :
    Std i (r.imageBarrier env img vt sub initial wanted force) := by
  obtain ⟨src, hs, ⟨-, e⟩ | ⟨-, e⟩⟩ := imageBarrier_cases env r img vt sub initial wanted force <;> rw [e]
  · refine ⟨map_set h.tracked _ _ _ hw, h.pending, ?_⟩
    intro k hk
    simp only [List.mem_append, List.mem_singleton] at hk
    rcases hk with hk | rfl
    · exact h.cmds k hk
    · intro hid
      refine ⟨?_, hw hid⟩
      show src.layout = _ ∨ src ∈ usual
      split at hs
      · subst hs
        rcases hi hid with h0 | h0
        · exact Or.inl h0
        · by_cases hu : initial = Layout.undefined
          · exact Or.inl hu
          · exact Or.inr (ends_made (Or.inr h0) hu)
      · rename_i hd
        subst hs
        rcases get_usual h.tracked hid vt (adaptRange env.sepDS img.format sub) with h0 | h0
        · exact absurd h0 hd
        · exact Or.inr h0
  · exact h

theorem std_barrier (env : Env) {r : Rec} (h : Std i r) (v : View) (initial : Nat) (wanted : LayoutState) (force : Bool)
    (hw : v.image.id = i → wanted ∈ usual) (hi : v.image.id = i → EndsWell initial) :
    Std i (r.viewBarrier env v initial wanted force) := std_imageBarrier env h _ _ _ _ _ _ hw hi

theorem std_bufferBarrier {r : Rec} (h : Std i r) (b o s : Nat) (x w : AccessState) (f : Bool) :
    Std i (r.bufferBarrier b o s x w f) := by
  unfold Rec.bufferBarrier
  simp only
  generalize (if (r.ctx.getAccess b).stage = Stage.bottomOfPipe then x else r.ctx.getAccess b) = src
  split
  · have := std_emit h (c := .bufferBarrier b o s src w) trivial
    exact ⟨this.tracked, this.pending, this.cmds⟩
  · exact h

theorem std_final (env : Env) {r : Rec} (h : Std i r) (v : View) (l : Nat) (hl : v.image.id = i → EndsWell l) :
    Std i (r.finalBarrier env v l) := by
  unfold Rec.finalBarrier
  split
  · rename_i hn
    have hn : l ≠ Layout.undefined := by simpa using hn
    exact std_barrier env h v _ _ _ (fun hv => ends_made (hl hv) hn) (fun _ => Or.inl rfl)
  · exact h

theorem std_runImplicitN (env : Env) : ∀ (n : Nat) {r : Rec} (_ : Std i r) (v : View), Std i (Rec.runImplicitN env n r v)
  | 0, r, h, v => h
  | n + 1, r, h, v => by
    unfold Rec.runImplicitN
    split
    · exact h
    · rename_i t ht
      have hm := List.mem_of_find?_eq_some ht
      have ha := h.pending t hm
      simp only
      have h1 : Std i { r with ctx := { r.ctx with implicit := r.ctx.implicit.eraseP (Implicit.isFor v) } } :=
        ⟨h.tracked, fun u hu => h.pending u (List.mem_of_mem_eraseP hu), h.cmds⟩
      generalize ({ r with ctx := { r.ctx with implicit := r.ctx.implicit.eraseP (Implicit.isFor v) } } : Rec) = r1 at h1
      split
      · exact h1
      · cases hact : t.action with
        | nothing => exact h1
        | user k => exact std_emit h1 trivial
        | copy src dst w hh final =>
          rw [hact] at ha
          have h2 := std_runImplicitN env n h1 src
          simp only
          unfold Rec.doCopy
          exact std_final env (std_emit (c := .copyImage _ Layout.transferSrc _ _ Layout.transferDst _ _ _ _) (std_barrier env (std_barrier env h2 src _ _ _ (fun _ => usual_src) (fun _ => Or.inl rfl))
            dst _ _ _ (fun _ => usual_dst) (fun _ => Or.inl rfl)) ⟨rfl, rfl⟩) dst final ha
        | blit src dst sx sy sw sh dx dy dw dh filter final =>
          rw [hact] at ha
          have h2 := std_runImplicitN env n h1 src
          simp only
          unfold Rec.doBlit
          exact std_final env (std_emit (c := .blitImage _ Layout.transferSrc _ _ _ Layout.transferDst _ _ _) (std_barrier env (std_barrier env h2 src _ _ _ (fun _ => usual_src) (fun _ => Or.inl rfl))
            dst _ _ _ (fun _ => usual_dst) (fun _ => Or.inl rfl)) ⟨rfl, rfl⟩) dst final ha
        | clear dst value final =>
          rw [hact] at ha
          simp only
          unfold Rec.doClear
          exact std_final env (std_emit (c := .clearImage _ _ Layout.transferDst _ _)
            (std_barrier env h1 dst _ _ _ (fun _ => usual_dst) (fun _ => Or.inl rfl)) rfl) dst final ha

theorem std_runImplicit (env : Env) {r : Rec} (h : Std i r) (v : View) : Std i (r.runImplicit env v) :=
  std_runImplicitN env _ h v

theorem std_current {G : GraphSt} (hin : MapWell i G.inputs) (hfin : MapWell i G.final.images) {r : Rec} (h : Std i r) (v : View) :
    Std i { r with ctx := (getCurrentLayoutState G r.ctx v).2 }
    ∧ (v.image.id = i → EndsWell (getCurrentLayoutState G r.ctx v).1.layout) := by
  have g1 := fun hv => get_usual h.tracked (img := v.image) hv v.viewType v.range
  have g2 := fun hv => get_usual hin (img := v.image) hv v.viewType v.range
  have g3 := fun hv => get_usual hfin (img := v.image) hv v.viewType v.range
  have ew : ∀ s : LayoutState, s.layout = Layout.undefined ∨ s ∈ usual → EndsWell s.layout := fun s hs =>
    hs.elim Or.inl fun h => Or.inr ⟨s, h, rfl⟩
  unfold getCurrentLayoutState
  simp only
  have hset : ∀ (c : Ctx), MapWell i c.images → (c.implicit = r.ctx.implicit) → ∀ s : LayoutState,
      (v.image.id = i → s ∈ usual) → Std i { r with ctx := c.setLayout v.image v.viewType v.range s } := fun c h1 h2 s hs =>
    ⟨map_set h1 _ _ _ hs, by show ∀ t ∈ c.implicit, _; rw [h2]; exact h.pending, h.cmds⟩
  have hs1 : ∀ s : LayoutState, s.layout ≠ Layout.undefined → (v.image.id = i → s.layout = Layout.undefined ∨ s ∈ usual) →
      v.image.id = i → s ∈ usual := fun s hs h hv => (h hv).resolve_left hs
  by_cases c1 : (r.ctx.images.getState v.image v.viewType v.range).layout = Layout.undefined
  · by_cases c2 : (G.inputs.getState v.image v.viewType v.range).layout = Layout.undefined
    · by_cases c3 : (G.final.images.getState v.image v.viewType v.range).layout = Layout.undefined
      · simp only [c1, c2, c3, if_true, ne_eq, not_true_eq_false, if_false]
        exact ⟨h, fun _ => Or.inl rfl⟩
      · simp only [c1, c2, c3, if_true, ne_eq, not_true_eq_false, if_false, not_false_eq_true]
        exact ⟨hset r.ctx h.tracked rfl _ (hs1 _ c3 g3), fun hv => ew _ (g3 hv)⟩
    · simp only [c1, c2, if_true, ne_eq, not_false_eq_true, if_false]
      exact ⟨hset r.ctx h.tracked rfl _ (hs1 _ c2 g2), fun hv => ew _ (g2 hv)⟩
  · simp only [c1, if_false]
    exact ⟨h, fun hv => ew _ (g1 hv)⟩

theorem std_recordImage {env : Env} {G : GraphSt} (hin : MapWell i G.inputs) (hfin : MapWell i G.final.images) {index : Nat}
    {a : Attachment} (hd : ∀ v ∈ a.img.views, v.image.id = i → EndsWell (a.getImageLayout env.sepDS)
      ∧ a.getImageLayout env.sepDS ≠ Layout.undefined) {r r' : Rec} (h : Std i r)
    (e : recordImage env G index r a = some r') : Std i r' := by
  unfold recordImage at e
  cases hv : a.img.view index with
  | none => rw [hv] at e; simp at e
  | some v =>
    rw [hv] at e
    simp only at e
    have hd := hd v (view_mem hv)
    have hn : v.image.id = i → makeLayoutState (a.getImageLayout env.sepDS) ∈ usual := fun h => ends_made (hd h).1 (hd h).2
    have h1 := std_runImplicit env h v
    generalize r.runImplicit env v = r1 at h1 e
    split at e
    · have hcur : ∀ cur : LayoutState × Ctx,
          cur = (if (!a.isInput) = true then (makeLayoutState Layout.undefined, r1.ctx) else getCurrentLayoutState G r1.ctx v) →
          Std i { r1 with ctx := cur.2 } ∧ (v.image.id = i → EndsWell cur.1.layout) := by
        rintro cur rfl
        split
        · exact ⟨h1, fun _ => Or.inl rfl⟩
        · exact std_current hin hfin h1 v
      obtain ⟨h2, h3⟩ := hcur _ rfl
      generalize (if (!a.isInput) = true then (makeLayoutState Layout.undefined, r1.ctx) else getCurrentLayoutState G r1.ctx v)
        = cur at h2 h3 e
      split at e
      · simp only [Option.some.injEq] at e
        subst e
        exact std_barrier env (std_emit (c := .clearImage _ _ Layout.transferDst _ _)
          (std_barrier env h2 v _ _ _ (fun _ => usual_clear) h3) rfl) v _ _ _ hn (fun _ => Or.inr ⟨_, usual_clear, rfl⟩)
      · simp only [Option.some.injEq] at e
        subst e
        exact std_barrier env h2 v _ _ _ hn h3
    · simp only [Option.some.injEq] at e
      subst e
      exact h1

theorem std_foldOpt {α : Type} {f : Rec → α → Option Rec} : ∀ (as : List α),
    (∀ a ∈ as, ∀ r r', Std i r → f r a = some r' → Std i r') → ∀ r r', Std i r → Run.foldOpt f r as = some r' → Std i r'
  | [], _, r, r', h, e => by
    simp only [Run.foldOpt, Option.some.injEq] at e
    subst e; exact h
  | a :: as, hf, r, r', h, e => by
    unfold Run.foldOpt at e
    split at e
    · simp at e
    · rename_i r1 e1
      exact std_foldOpt as (fun a ha => hf a (by simp [ha])) r1 r' (hf a (by simp) r r1 h e1) e

theorem std_recordBuffer {compute : Bool} {index : Nat} {a : Attachment} {r r' : Rec} (h : Std i r)
    (e : recordBuffer compute index r a = some r') : Std i r' := by
  unfold recordBuffer at e
  split at e
  · split at e
    · simp at e
    · simp only at e
      split at e
      · simp only [Option.some.injEq] at e
        subst e
        exact std_bufferBarrier (std_emit (c := .fillBuffer _ _ _) (std_bufferBarrier h _ _ _ _ _ _) trivial) _ _ _ _ _ _
      · simp only [Option.some.injEq] at e
        subst e
        exact std_bufferBarrier h _ _ _ _ _ _
  · simp only [Option.some.injEq] at e
    subst e; exact h

theorem std_prepare {env : Env} {G : GraphSt} (hin : MapWell i G.inputs) (hfin : MapWell i G.final.images) {p : RunPass} {index : Nat}
    (hd : ∀ a ∈ p.images, ∀ v ∈ a.img.views, v.image.id = i → EndsWell (a.getImageLayout env.sepDS)
      ∧ a.getImageLayout env.sepDS ≠ Layout.undefined) {r r' : Rec} (h : Std i r)
    (e : prepare env G p index r = some r') : Std i r' := by
  unfold prepare at e
  split at e
  · simp at e
  · rename_i r1 e1
    exact std_foldOpt _ (fun a _ r r' h e => std_recordBuffer h e) _ _
      (std_foldOpt _ (fun a ha r r' h e => std_recordImage hin hfin (hd a ha) h e) _ _ h e1) e

theorem std_registerAll {p : RunPass} (ha : ∀ va ∈ p.implicitActions, ActionWell i va.2) {r : Rec} (h : Std i r) :
    Std i (registerAll p r) := by
  unfold registerAll
  generalize hl : p.implicitActions = l at ha
  clear hl
  induction l generalizing r with
  | nil => exact h
  | cons va l ih =>
    simp only [List.foldl_cons]
    refine ih ⟨h.tracked, ?_, h.cmds⟩ (fun x hx => ha x (by simp [hx]))
    intro t ht
    simp only [Rec.register, List.mem_append, List.mem_singleton] at ht
    rcases ht with ht | rfl
    · exact h.pending t ht
    · exact ha va (by simp)

/-! ### The bodies -/

section Bodies
variable {sepDS : Bool} {fmt : Nat → Nat} {V : View → Prop} {passes : List RunPass} {G : GraphSt}

theorem std_draws (hT : TidyViews sepDS fmt V passes) {p : RunPass} (hp : p ∈ passes) (hD : RPass.Declares sepDS p)
    (hti : ∀ a ∈ p.images, RPass.isTarget a = true → ∀ v ∈ a.img.views, v.image.id ≠ i) {index w ht : Nat}
    {cached : Option RPass.PassObj} (hmade : ∀ o, cached = some o → RPass.MadeFor sepDS p index o) {draw : List Nat} {r r' : Rec}
    {o : RPass.PassObj} (e : RPass.recordPass sepDS G w ht p cached draw index r = some (o, r')) (h : Std i r) : Std i r' := by
  unfold RPass.recordPass at e
  cases e0 : RPass.initialise sepDS G w ht p index cached r.ctx with
  | none => rw [e0] at e; simp at e
  | some obc =>
    obtain ⟨o1, b, c⟩ := obc
    rw [e0] at e
    simp only [Option.map_some, Option.some.injEq, Prod.mk.injEq] at e
    obtain ⟨rfl, rfl⟩ := e
    have hm : RPass.MadeFor sepDS p index o1 := by
      rcases RPass.initialise_cases e0 with ⟨-, hq, -⟩ | ⟨-, hf⟩
      · exact hmade o1 hq
      · exact ⟨G, r.ctx, c, w, ht, hf⟩
    obtain ⟨ts, hts, ho⟩ := RPass.parts_correspond hD hm
    have hatt : ∀ av ∈ ts, av.2.image.id ≠ i := by
      intro av hav
      have h1 : av.1 ∈ p.images.filter RPass.isTarget := by
        rw [← hts.all]; exact List.mem_map_of_mem hav
      have h2 := List.mem_filter.1 h1
      exact hti av.1 h2.1 h2.2 av.2 (view_mem (hts.view av hav))
    have hall : c.implicit = r.ctx.implicit ∧ (∀ l m, c.images.at i l m = r.ctx.images.at i l m) := by
      rcases RPass.initialise_cases e0 with ⟨rfl, hq, hchk, hpv, hnx, rfl⟩ | ⟨hb, hf⟩
      · exact ⟨rfl, fun _ _ => rfl⟩
      · obtain ⟨q1, q2, f1, f2, f3⟩ := RPass.initialise_new hf
        obtain ⟨us, u1, u2, u3, u4, u5, u6⟩ := RPass.createAll_ctx hT hp p.images (fun _ h => h) (hT.apart p hp index) _ _ _ _ f1
        have hus : ts = us := RPass.targets_eq (p := p) (by rw [hts.all, u1]) hts.view u2
        subst hus
        exact ⟨u3, fun l m => u5 i l m fun av hav hx => hatt av hav hx.1.symm⟩
    have hent : ∀ en ∈ o1.entries, en.view.image.id ≠ i := by
      intro en hen
      obtain ⟨k, hk⟩ := List.mem_iff_getElem?.1 hen
      have hlt : k < ts.length := by
        rw [← ho.entries]
        exact (List.getElem?_eq_some_iff.1 hk).1
      obtain ⟨en', d, g1, g2, g3, -⟩ := ho.at' k _ (List.getElem?_eq_getElem hlt)
      rw [hk] at g1
      cases g1
      rw [g3]
      exact hatt _ (List.getElem_mem hlt)
    have hatts : ∀ x ∈ o1.atts, x.image ≠ i := by
      intro x hx
      obtain ⟨j, av, d, h1, h2, rfl⟩ := RPass.att_of ho hx
      exact hatt av (List.mem_of_getElem? h1)
    refine ⟨?_, ?_, ?_⟩
    · intro l m s hs
      refine h.tracked l m s ?_
      rw [← hall.2 l m]
      have e1 := (RPass.setAll_at (fun e => e.input) o1.entries c i l m).1 fun e he hx => hent e he hx.1.symm
      have e2 := (RPass.setAll_at (fun e => e.output) o1.entries
        (o1.entries.foldl (fun (c : Ctx) (e : RPass.Entry) => c.setLayout e.view.image e.view.viewType e.view.range e.input) c)
        i l m).1 fun e he hx => hent e he hx.1.symm
      exact (e2.trans e1).symm.trans hs
    · intro t ht
      refine h.pending t ?_
      have : (RPass.endPass { RPass.beginPass { r with ctx := c } o1 with
            cmds := (RPass.beginPass { r with ctx := c } o1).cmds ++ draw.map .user } o1).ctx.implicit = r.ctx.implicit :=
        (RPass.setAll_keeps (fun e => e.output) o1.entries _).trans
          ((RPass.setAll_keeps (fun e => e.input) o1.entries c).trans hall.1)
      rw [← this]
      exact ht
    · intro k hk
      have hk : k ∈ ((r.cmds ++ [.beginPass o1.atts o1.width o1.height o1.layers]) ++ draw.map .user) ++ [.endPass o1.atts] := hk
      simp only [List.mem_append, List.mem_singleton, List.mem_map] at hk
      rcases hk with ((hk | rfl) | ⟨n, -, rfl⟩) | rfl
      · exact h.cmds k hk
      · exact hatts
      · trivial
      · exact hatts

theorem std_copyPairs (env : Env) (size : Xfer.Extent) (final index : Nat) : ∀ (as : List Attachment),
    ((∃ a ∈ as, ∃ v ∈ a.img.views, v.image.id = i) → EndsWell final) → ∀ {r r' : Rec}, Std i r →
    Xfer.copyPairs env size final index as r = some r' → Std i r'
  | [], _, r, r', h, e => by
    simp only [Xfer.copyPairs, Option.some.injEq] at e
    subst e
    exact h
  | [_], _, r, r', _, e => by simp [Xfer.copyPairs] at e
  | s :: t :: rest, hf, r, r', h, e => by
    unfold Xfer.copyPairs at e
    split at e
    · simp at e
    · rename_i r1 e1
      unfold Xfer.copyPair at e1
      split at e1
      · rename_i sv tv hs ht
        simp only [Option.some.injEq] at e1
        subst e1
        refine std_copyPairs env size final index rest (fun ⟨a, ha, x⟩ => hf ⟨a, by simp [ha], x⟩) ?_ e
        exact std_final env (std_emit (c := .copyImage _ Layout.transferSrc _ _ Layout.transferDst _ _ _ _) h ⟨rfl, rfl⟩) tv final
          (fun hi => hf ⟨t, by simp, tv, view_mem ht, hi⟩)
      · simp at e1

theorem std_foldl {α : Type} (f : Rec → α → Rec) (hf : ∀ r a, Std i r → Std i (f r a)) : ∀ (l : List α) (r : Rec),
    Std i r → Std i (l.foldl f r)
  | [], _, h => h
  | a :: l, r, h => std_foldl f hf l (f r a) (hf r a h)

theorem std_generate (env : Env) (hin : MapWell i G.inputs) (hfin : MapWell i G.final.images) (v : View) (ty : ViewType)
    {next : LayoutState} (hn : v.image.id = i → next ∈ usual) {r : Rec} (h : Std i r) : Std i (Mip.generate env G v ty next r) := by
  unfold Mip.generate
  refine std_foldl _ (fun r layer h => ?_) _ _ h
  unfold Mip.layerStep
  simp only
  obtain ⟨h1, h2⟩ := std_current hin hfin h { v with range := Mip.sub (getAspectMask v.image.format) layer 0 }
  generalize getCurrentLayoutState G r.ctx { v with range := Mip.sub (getAspectMask v.image.format) layer 0 } = cur at h1 h2 ⊢
  have h3 := std_imageBarrier env h1 v.image ty (Mip.sub (getAspectMask v.image.format) layer 0) cur.1.layout Mip.srcState false
    (fun _ => usual_mip) h2
  refine std_foldl _ (fun r l h => ?_) _ _ h3
  unfold Mip.levelStep
  simp only
  generalize getAspectMask v.image.format = asp
  have s1 := std_imageBarrier env h v.image ty (Mip.sub asp layer l) Layout.undefined (makeLayoutState Layout.transferDst) false
    (fun _ => usual_dst) (fun _ => Or.inl rfl)
  generalize r.imageBarrier env v.image ty (Mip.sub asp layer l) Layout.undefined (makeLayoutState Layout.transferDst) false
    = r1 at s1 ⊢
  have s2 := std_emit (c := .blitImage v.image.id Layout.transferSrc (Mip.sub asp layer (l - 1)) (Mip.corners v.image (l - 1))
    v.image.id Layout.transferDst (Mip.sub asp layer l) (Mip.corners v.image l) Mip.filterLinear) s1 ⟨rfl, rfl⟩
  generalize r1.emit _ = r2 at s2 ⊢
  have s3 := std_imageBarrier env s2 v.image ty (Mip.sub asp layer (l - 1)) Layout.transferSrc next false hn
    (fun _ => Or.inr ⟨_, usual_src, rfl⟩)
  generalize r2.imageBarrier env v.image ty (Mip.sub asp layer (l - 1)) Layout.transferSrc next false = r3 at s3 ⊢
  split
  · exact std_imageBarrier env s3 _ _ _ _ _ _ hn (fun _ => Or.inr ⟨_, usual_dst, rfl⟩)
  · exact std_imageBarrier env s3 _ _ _ _ _ _ (fun _ => usual_src) (fun _ => Or.inr ⟨_, usual_dst, rfl⟩)

theorem std_performAll : ∀ (calls : List Call), (∀ c ∈ calls, CallWell i c) → ∀ {r : Rec}, Std i r → Std i (performAll sepDS r calls)
  | [], _, _, h => h
  | c :: cs, hc, r, h => by
    refine std_performAll cs (fun x hx => hc x (by simp [hx])) ?_
    have hcc := hc c (by simp)
    cases c with
    | barrier v x w f => exact std_barrier _ h v x w f (fun hv => (hcc hv).1) (fun hv => (hcc hv).2)
    | buffer q => exact std_bufferBarrier h _ _ _ _ _ _
    | register t =>
      refine ⟨h.tracked, ?_, h.cmds⟩
      intro u hu
      simp only [perform, Rec.register, List.mem_append, List.mem_singleton] at hu
      rcases hu with hu | rfl
      · exact h.pending u hu
      · exact hcc
    | use v en => exact std_runImplicit _ h v
    | work k => exact std_emit h trivial

theorem next_near (hout : MapNear i G.outputs.toMap) {p : RunPass} (hlay : MapNear i (p.layouts sepDS).toMap) {c : Ctx}
    (hc : MapNear i c.nextImages) {v : View} (hv : v.image.id = i) :
    (getNextLayoutState sepDS G c p v).layout = Layout.undefined ∨ Near (getNextLayoutState sepDS G c p v) := by
  unfold getNextLayoutState
  simp only
  have g1 := get_near hc hv v.viewType v.range
  have g2 := get_near hout hv v.viewType v.range
  have g3 := get_near hlay hv v.viewType v.range
  split
  · split
    · exact g3
    · exact g2
  · exact g1

/-- The body of a pass, entered with the recording `r`. -/
theorem std_body (hT : TidyViews sepDS fmt V passes) {cached : Nat → Nat → Option RPass.PassObj}
    (hO : OnlyMoved sepDS G i cached passes) {p : RunPass} (hp : p ∈ passes) {index : Nat}
    (hmade : ∀ o, cached p.id index = some o → RPass.MadeFor sepDS p index o) {r : Rec}
    (hann : (∃ ty output, Lib.MakesMipmaps sepDS G p ty output) → Lib.Announces sepDS G p index r)
    (hlay : MapNear i (p.layouts sepDS).toMap) (hnext : MapNear i r.ctx.nextImages) (h : Std i r) : Std i (p.body index r) := by
  cases hO.bodies p hp with
  | draws hR hD =>
    obtain ⟨w, ht, draw, hb⟩ := hR
    rw [hb]
    cases e1 : RPass.recordPass sepDS G w ht p (cached p.id index) draw index r with
    | none => exact h
    | some x =>
      obtain ⟨o, r'⟩ := x
      exact std_draws hT hp hD (hO.targets p hp) hmade e1 h
  | copies en size final body ends =>
    rw [body]
    cases e : Xfer.imageCopy ⟨sepDS, en⟩ p size final index r with
    | none => exact h
    | some r' => exact std_copyPairs ⟨sepDS, en⟩ size final index p.images ends h e
  | blits so ss dof ds fi body =>
    rw [body]
    unfold Xfer.imageBlit
    split
    · split
      · exact std_emit (c := .blitImage _ Layout.transferSrc _ _ _ Layout.transferDst _ _ _) h ⟨rfl, rfl⟩
      · exact h
    · exact h
  | copiesBuffers co cr body =>
    rw [body]
    unfold Xfer.bufferCopy
    split
    · split
      · exact std_bufferBarrier (std_bufferBarrier (std_emit (c := .copyBuffer _ _ _ _ _)
          (std_bufferBarrier (std_bufferBarrier h _ _ _ _ _ _) _ _ _ _ _ _) trivial) _ _ _ _ _ _) _ _ _ _ _ _
      · exact h
    · exact h
  | uploads o s body =>
    rw [body]
    unfold Xfer.bufferToImage
    split
    · split
      · exact std_emit (c := .copyBufferToImage _ _ _ Layout.transferDst _ _ _ _ _ _ _) h rfl
      · exact h
    · exact h
  | downloads o s body =>
    rw [body]
    unfold Xfer.imageToBuffer
    split
    · split
      · exact std_emit (c := .copyImageToBuffer _ Layout.transferSrc _ _ _ _ _ _ _ _ _) h rfl
      · exact h
    · exact h
  | mipmaps ty output hM =>
    obtain ⟨en', hb⟩ := hM.body index r
    rw [hb]
    have ha' := hann ⟨ty, output, hM⟩
    split
    · rename_i a ha
      split
      · rename_i v hv
        exact std_generate ⟨sepDS, en'⟩ hO.inputs hO.final v ty
          (fun hi => near_usual ((next_near hO.outputs hlay hnext hi).resolve_left (ha' a ha v hv).1) (ha' a ha v hv).2.1 (ha' a ha v hv).2.2) h
      · exact h
    · exact h
  | uses hb =>
    obtain ⟨calls, hc, eb⟩ := hb index r
    rw [eb]
    exact std_performAll calls hc h

/-! ### Announced states -/

theorem layouts_well {p : RunPass} (hd : ∀ a ∈ p.images, ∀ v ∈ a.img.views, v.image.id = i →
      Near ⟨a.getImageLayout sepDS, ⟨a.getAccessMask, a.getPipelineStageFlags p.compute⟩⟩) :
    MapNear i (p.layouts sepDS).toMap := by
  intro l m s hs
  rw [toMap_at] at hs
  obtain ⟨a, ⟨ha, v, hv, hc⟩, rfl⟩ := layouts_at_sound hs
  exact hd a ha v hv hc.1

theorem announce_well {env : Env} (hout : MapNear i G.outputs.toMap) {p : RunPass} {next : List RunPass} (c : Ctx)
    (hd : ∀ q ∈ next, MapNear i (q.layouts env.sepDS).toMap) : MapNear i (announce env G p next c).nextImages := by
  unfold announce
  split
  · exact hout
  · intro l m s hs
    have hs : (gather env.sepDS env.enabled (p.layouts env.sepDS) next []).toMap.at i l m = some s := hs
    rw [toMap_at] at hs
    rcases gather_sound env.sepDS env.enabled next _ [] (layouts_ok env.sepDS p) images_ok_nil (fun _ _ _ => rfl) i l m s hs with h | ⟨q, hq, -, h, -⟩
    · simp [Images.at, OMap.find] at h
    · exact hd q hq l m s (by rw [toMap_at]; exact h)

end Bodies

/-! ### The recording -/

theorem std_loop {env : Env} {G : GraphSt} {index : Nat → Nat} (hin : MapWell i G.inputs) (hfin : MapWell i G.final.images)
    (hout : MapNear i G.outputs.toMap) : ∀ (ps : List RunPass) (f f' : Frame),
    (∀ p ∈ ps, ∀ a ∈ p.images, ∀ v ∈ a.img.views, v.image.id = i →
      Near ⟨a.getImageLayout env.sepDS, ⟨a.getAccessMask, a.getPipelineStageFlags p.compute⟩⟩) →
    (∀ p ∈ ps, ∀ va ∈ p.implicitActions, ActionWell i va.2) →
    (∀ p r, Enters env G index ps f p r → MapNear i r.ctx.nextImages → Std i r → Std i (p.body (index p.id) r)) →
    Std i f.recd → recordLoop env G index ps f = some f' →
    Std i f'.recd ∧ ∀ p r, Enters env G index ps f p r → Std i r ∧ MapNear i r.ctx.nextImages
  | [], f, f', _, _, _, h, e => by
    simp only [recordLoop, Option.some.injEq] at e
    subst e
    exact ⟨h, fun p r he => absurd he (by simp [Enters])⟩
  | p :: next, f, f', hd, ha, hb, h, e => by
    unfold recordLoop at e
    simp only at e
    have h0 : Std i { f.recd with ctx := announce env G p next f.recd.ctx } :=
      ⟨by rw [(announce_keeps env G p next f.recd.ctx).1]; exact h.tracked,
        by show ∀ t ∈ (announce env G p next f.recd.ctx).implicit, _
           rw [(announce_keeps env G p next f.recd.ctx).2]; exact h.pending, h.cmds⟩
    have hn := announce_well (env := env) (p := p) (next := next) hout f.recd.ctx
      (fun q hq => layouts_well (hd q (by simp [hq])))
    have hdp : ∀ a ∈ p.images, ∀ v ∈ a.img.views, v.image.id = i → EndsWell (a.getImageLayout env.sepDS)
        ∧ a.getImageLayout env.sepDS ≠ Layout.undefined := fun a haa v hv hi =>
      near_ends (hd p (by simp) a haa v hv hi)
    have hprep : ∀ r, prepare env G p (index p.id) { f.recd with ctx := announce env G p next f.recd.ctx } = some r →
        Std i r ∧ MapNear i r.ctx.nextImages := fun r er =>
      ⟨std_prepare hin hfin hdp h0 er, by rw [(samePipe_prepare env G p _ _ _ er).2.2.2]; exact hn⟩
    split at e
    · simp at e
    · rename_i f1 e1
      have h1 : Std i f1.recd := by
        unfold recordInto at e1
        split at e1
        · rename_i hen
          split at e1
          · simp only at e1
            generalize hf2 : (if (!f.initialised p.id (index p.id)) = true then
              Frame.initialise { f with recd := { f.recd with ctx := announce env G p next f.recd.ctx } } p (index p.id)
              else { f with recd := { f.recd with ctx := announce env G p next f.recd.ctx } } : Frame) = f2 at e1
            have hr2 : f2.recd = { f.recd with ctx := announce env G p next f.recd.ctx } := by
              rw [← hf2]; split <;> rfl
            rw [hr2] at e1
            split at e1
            · simp at e1
            · rename_i r er
              simp only [Option.some.injEq] at e1
              subst e1
              obtain ⟨g1, g2⟩ := hprep r er
              exact std_registerAll (ha p (by simp)) (hb p r (Or.inl ⟨rfl, hen, er⟩) g2 g1)
          · simp at e1
        · simp only [Option.some.injEq] at e1
          subst e1
          exact std_registerAll (ha p (by simp)) h0
      obtain ⟨t1, t2⟩ := std_loop hin hfin hout next f1 f' (fun q hq => hd q (by simp [hq])) (fun q hq => ha q (by simp [hq]))
        (fun q r he => hb q r (Or.inr ⟨f1, e1, he⟩)) h1 e
      refine ⟨t1, ?_⟩
      rintro q r (⟨rfl, -, er⟩ | ⟨f1', e1', he⟩)
      · exact hprep r er
      · rw [e1] at e1'
        cases e1'
        exact t2 q r he

/-! ### What a stream of such commands orders -/

theorem covers_refl (s : AccessState) : Covers s s := ⟨Nat.and_self _, Nat.and_self _⟩

theorem putAll_other (f : PassAtt → Option Nat) {a l m : Nat} : ∀ (xs : List PassAtt) (g : Layouts), (∀ x ∈ xs, x.image ≠ i) →
    xs.foldl (fun g x => match f x with | some lay => put g x.image x.range lay | none => g) g i a l m = g i a l m
  | [], _, _ => rfl
  | x :: xs, g, h => by
    rw [List.foldl_cons, putAll_other f xs _ (fun y hy => h y (by simp [hy]))]
    cases f x with
    | none => rfl
    | some lay =>
      have := h x (by simp)
      simp only [put]
      rw [if_neg]
      rintro ⟨h1, -⟩
      exact this h1.symm

theorem exec_other {a l m : Nat} {k : Cmd} (g : Layouts) (hk : CmdWell i k) (hs : scopes i a l m k = none) :
    exec g k i a l m = g i a l m := by
  cases k with
  | imageBarrier img r src dst old new =>
    simp only [scopes] at hs
    split at hs
    · simp at hs
    · rename_i h
      exact if_neg fun hx => h ⟨hx.1.symm, hx.2⟩
  | beginPass atts _ _ _ => exact putAll_other (fun x => x.during) atts g hk
  | endPass atts => exact putAll_other (fun x => some x.final) atts g hk
  | _ => rfl

/-- Between two moments of a valid stream, whichever commands are recorded, the barriers link the two usual states the
subresource is in. -/
theorem chain {a l m : Nat} : ∀ (cs : List Cmd) (g : Layouts) {s : LayoutState}, StreamValid g cs → (∀ k ∈ cs, CmdWell i k) →
    (∀ k ∈ cs, ¬ Forgets i a l m k) → s ∈ usual → g i a l m = s.layout →
    ∃ t ∈ usual, execAll g cs i a l m = t.layout
      ∧ ((t = s ∧ barriers i a l m cs = []) ∨ Ordered s.state (barriers i a l m cs) t.state)
  | [], g, s, _, _, _, hs, hg => ⟨s, hs, hg, Or.inl ⟨rfl, rfl⟩⟩
  | k :: cs, g, s, hv, hc, hf, hs, hg => by
    have hck := hc k (by simp)
    have hfk := hf k (by simp)
    cases hb : scopes i a l m k with
    | none =>
      obtain ⟨t, ht, h1, h2⟩ := chain cs (exec g k) hv.2 (fun x hx => hc x (by simp [hx])) (fun x hx => hf x (by simp [hx])) hs
        ((exec_other g hck hb).trans hg)
      refine ⟨t, ht, h1, ?_⟩
      rw [show barriers i a l m (k :: cs) = barriers i a l m cs from List.filterMap_cons_none hb]
      exact h2
    | some sd =>
      rw [show barriers i a l m (k :: cs) = sd :: barriers i a l m cs from List.filterMap_cons_some hb]
      cases k with
      | imageBarrier img r src dst old new =>
        simp only [scopes] at hb
        split at hb
        · rename_i hx
          obtain ⟨hi, hsel⟩ := hx
          have hi := hi.symm
          subst hi
          cases hb
          obtain ⟨ho, hn⟩ := hck rfl
          have hold : old ≠ Layout.undefined := fun h => hfk ⟨h, rfl, hsel⟩
          have ho := ho.resolve_left hold
          have hgo : g i a l m = old := (hv.1.resolve_left hold) a l m hsel
          have es : (⟨old, src⟩ : LayoutState) = s := usual_same ho hs (hgo.symm.trans hg)
          subst es
          have hgn : exec g (.imageBarrier i r src dst old new) i a l m = (⟨new, dst⟩ : LayoutState).layout :=
            if_pos ⟨rfl, hsel⟩
          obtain ⟨t, ht, h1, h2⟩ := chain cs _ hv.2 (fun x hx => hc x (by simp [hx])) (fun x hx => hf x (by simp [hx])) hn hgn
          refine ⟨t, ht, h1, Or.inr ?_⟩
          rcases h2 with ⟨rfl, h2⟩ | h2
          · rw [h2]
            exact ⟨covers_refl _, covers_refl _⟩
          · cases hbs : barriers i a l m cs with
            | nil => rw [hbs] at h2; exact absurd h2 (fun h => h)
            | cons b bs =>
              rw [hbs] at h2
              exact ⟨covers_refl _, usual_stage hn, h2⟩
        · simp at hb
      | _ => simp [scopes] at hb

theorem does_layout {a l m : Nat} {w : Bool} {k : Cmd} {g : Layouts} (hk : CmdWell i k) (hv : Valid g k) (hd : Does i a l m w k) :
    ∃ s ∈ usual, s.state = scope w ∧ g i a l m = s.layout := by
  cases w with
  | true =>
    refine ⟨⟨Layout.transferDst, transferWrite⟩, by decide, rfl, ?_⟩
    simp only [Does, if_true] at hd
    cases k with
    | copyImage s sl sr d dl dr x y z => obtain ⟨rfl, h⟩ := hd; exact (hv.2 a l m h).trans hk.2
    | blitImage s sl sr sc d dl dr dc f => obtain ⟨rfl, h⟩ := hd; exact (hv.2 a l m h).trans hk.2
    | copyBufferToImage _ _ d dl dr => obtain ⟨rfl, h⟩ := hd; exact (hv a l m h).trans hk
    | clearImage _ d dl dr => obtain ⟨rfl, h⟩ := hd; exact (hv a l m h).trans hk
    | _ => exact absurd hd (fun h => h)
  | false =>
    refine ⟨⟨Layout.transferSrc, transferRead⟩, by decide, rfl, ?_⟩
    simp only [Does, Bool.false_eq_true, if_false] at hd
    cases k with
    | copyImage s sl sr d dl dr x y z => obtain ⟨rfl, h⟩ := hd; exact (hv.1 a l m h).trans hk.1
    | blitImage s sl sr sc d dl dr dc f => obtain ⟨rfl, h⟩ := hd; exact (hv.1 a l m h).trans hk.1
    | copyImageToBuffer s sl sr => obtain ⟨rfl, h⟩ := hd; exact (hv a l m h).trans hk
    | _ => exact absurd hd (fun h => h)

theorem does_quiet {a l m : Nat} {w : Bool} {k : Cmd} (hd : Does i a l m w k) : scopes i a l m k = none := by
  cases k <;> first | rfl | (cases w <;> exact absurd hd (fun h => h))

/-- Two states that agree on the layout agree. -/
theorem chain_to {a l m : Nat} {cs : List Cmd} {g : Layouts} {s t : LayoutState} (hv : StreamValid g cs)
    (hc : ∀ k ∈ cs, CmdWell i k) (hf : ∀ k ∈ cs, ¬ Forgets i a l m k) (hs : s ∈ usual) (hg : g i a l m = s.layout) (ht : t ∈ usual)
    (he : execAll g cs i a l m = t.layout) :
    (s.state = t.state ∧ barriers i a l m cs = []) ∨ Ordered s.state (barriers i a l m cs) t.state := by
  obtain ⟨u, hu, h1, h2⟩ := chain cs g hv hc hf hs hg
  have := usual_same hu ht (h1.symm.trans he)
  subst this
  exact h2.imp (fun h => ⟨by rw [h.1], h.2⟩) (fun h => h)

/-! ### C97 -/

section Frames
variable {sepDS : Bool} {fmt : Nat → Nat} {V : View → Prop} {passes : List RunPass} {g0 : Layouts} {G : GraphSt}
  {cached : Nat → Nat → Option RPass.PassObj} {en : Nat → Bool} {index : Nat → Nat} {deps : List Ctx}
  {ini : Nat → Nat → Bool} {log : List Event}

theorem std_record (hO : Run.Ordinary sepDS fmt V G en index passes (frameStart sepDS deps passes ini log) cached)
    (hM : OnlyMoved sepDS G i cached passes) (hst : MapWell i (startCtx deps).images) {G' : GraphSt} {f : Frame}
    (e : record ⟨sepDS, en⟩ G deps index passes ini log = some (G', f)) :
    Std i f.recd ∧ ∀ p r, Enters ⟨sepDS, en⟩ G index passes (frameStart sepDS deps passes ini log) p r → Std i r := by
  unfold record at e
  simp only at e
  split at e
  · simp at e
  · rename_i f1 e1
    simp only [Option.some.injEq, Prod.mk.injEq] at e
    obtain ⟨rfl, rfl⟩ := e
    have hk := firstAnnounce_keeps sepDS passes (startCtx deps)
    have h0 : Std i (frameStart sepDS deps passes ini log).recd := by
      refine ⟨?_, ?_, by simp [frameStart]⟩
      · show MapWell i (firstAnnounce sepDS passes (startCtx deps)).images
        rw [hk.1]; exact hst
      · intro t ht
        rw [show (frameStart sepDS deps passes ini log).recd.ctx.implicit = (firstAnnounce sepDS passes (startCtx deps)).implicit from rfl,
          hk.2, startCtx_implicit] at ht
        simp at ht
    obtain ⟨h1, h2⟩ := std_loop hM.inputs hM.final hM.outputs passes _ _ (env := ⟨sepDS, en⟩) hM.declared hM.actions
      (fun p r he hn hr => std_body hO.tidy hM (enters_mem he) (hO.made p (enters_mem he)) (hO.announced p r he)
        (layouts_well (hM.declared p (enters_mem he))) hn hr) h0 e1
    exact ⟨h1, fun p r he => (h2 p r he).1⟩

/-- C97 (partial: as C64, for an image that is only transferred and sampled). If two transfer commands of a frame access the
same subresource of the image, and no barrier between them takes it from layout UNDEFINED, then the barriers recorded between
them order the two accesses, unless both read, or both write, and there is no barrier between them. -/
theorem transfers_ordered_partial
    (hO : Run.Ordinary sepDS fmt V G en index passes (frameStart sepDS deps passes ini log) cached)
    (hH : Honest fmt V g0 (startCtx deps) G)
    (hwell : Lib.EntersWell sepDS G en index passes (frameStart sepDS deps passes ini log) cached)
    (hM : OnlyMoved sepDS G i cached passes) (hst : MapWell i (startCtx deps).images) {G' : GraphSt} {f : Frame}
    (e : record ⟨sepDS, en⟩ G deps index passes ini log = some (G', f))
    {pre mid post : List Cmd} {x y : Cmd} (hc : f.recd.cmds = pre ++ x :: (mid ++ y :: post)) {a l m : Nat} {w w' : Bool}
    (hx : Does i a l m w x) (hy : Does i a l m w' y) (hf : ∀ k ∈ mid, ¬ Forgets i a l m k) :
    (w = w' ∧ barriers i a l m mid = []) ∨ Ordered (scope w) (barriers i a l m mid) (scope w') := by
  obtain ⟨h1, -⟩ := std_record hO hM hst e
  have hv := (Lib.library_graph_valid_partial hO.tidy cached hO.kind en index deps hH ini log hO.made hwell G' f e).1
  have hcm := h1.cmds
  rw [hc] at hv hcm
  rw [streamValid_append] at hv
  obtain ⟨-, hvx, hv⟩ := hv
  rw [streamValid_append] at hv
  obtain ⟨hvm, hvy, -⟩ := hv
  have wx := hcm x (by simp)
  obtain ⟨s, hs, es, hgs⟩ := does_layout wx hvx hx
  obtain ⟨t, ht, et, hgt⟩ := does_layout (hcm y (by simp)) hvy hy
  rcases chain_to hvm (fun k hk => hcm k (by simp [hk])) hf hs ((exec_other _ wx (does_quiet hx)).trans hgs) ht hgt with ⟨h, h'⟩ | h
  · refine Or.inl ⟨?_, h'⟩
    rw [es, et] at h
    revert h
    cases w <;> cases w' <;> decide
  · rw [es, et] at h
    exact Or.inr h

/-- After the body of a pass that uses the image is entered, the image is never forgotten. -/
theorem never_forgotten_partial
    (hO : Run.Ordinary sepDS fmt V G en index passes (frameStart sepDS deps passes ini log) cached)
    (hd : Defined (startCtx deps)) (hH : Honest fmt V g0 (startCtx deps) G)
    (hwell : Lib.EntersWell sepDS G en index passes (frameStart sepDS deps passes ini log) cached) {G' : GraphSt} {f : Frame}
    (e : record ⟨sepDS, en⟩ G deps index passes ini log = some (G', f)) {k : Nat} {p : RunPass} {r : Rec} {att : Attachment}
    {a l m : Nat} (hu : UsesAt sepDS fmt G en index passes (frameStart sepDS deps passes ini log) k p r att i a l m) :
    ∃ cs, f.recd.cmds = r.cmds ++ cs ∧ ∀ c ∈ cs, ¬ Forgets i a l m c := by
  obtain ⟨-, -, sp⟩ := tracked_never_discarded_partial hO hd e
  obtain ⟨⟨cs, hcs, hp⟩, -⟩ := sp k p r hu.pass hu.entered
  obtain ⟨q, hq, hE⟩ := RPass.enters_of hu.entered
  rw [hu.pass] at hq
  cases hq
  have hr := (ready_of_bodies hO.tidy en index deps hH ini log
    (Lib.bodies_keep hO.tidy cached hO.kind en index deps hH ini log hO.made hwell) p r hE).2
  obtain ⟨v, hv, hvi, hl⟩ := hu.view
  have ht := (hr att hu.attached hu.moved v hv).2 l m hl
  rw [hvi] at ht
  refine ⟨cs, hcs, ?_⟩
  intro c hc hf
  cases c with
  | imageBarrier img rg src dst old new =>
    obtain ⟨h1, h2, h3⟩ := hf
    subst h2
    exact (hp _ hc ⟨img, a, l, m, 0, 0, 0, 0⟩ ht ⟨h1, rfl, h3⟩).1 trivial
  | _ => exact hf

/-- What is known of the subresource when the body is entered: it is in the state declared. -/
theorem usesAt_state
    (hO : Run.Ordinary sepDS fmt V G en index passes (frameStart sepDS deps passes ini log) cached)
    (hH : Honest fmt V g0 (startCtx deps) G)
    (hwell : Lib.EntersWell sepDS G en index passes (frameStart sepDS deps passes ini log) cached)
    (hM : OnlyMoved sepDS G i cached passes) {k : Nat} {p : RunPass} {r : Rec} {att : Attachment}
    {a l m : Nat} (hu : UsesAt sepDS fmt G en index passes (frameStart sepDS deps passes ini log) k p r att i a l m) :
    Enters ⟨sepDS, en⟩ G index passes (frameStart sepDS deps passes ini log) p r ∧ StreamValid g0 r.cmds
    ∧ (⟨att.getImageLayout sepDS, accessesIn (att.getImageLayout sepDS)⟩ : LayoutState) ∈ usual
    ∧ execAll g0 r.cmds i a l m = att.getImageLayout sepDS := by
  obtain ⟨q, hq, hE⟩ := RPass.enters_of hu.entered
  rw [hu.pass] at hq
  cases hq
  obtain ⟨h, hr⟩ := ready_of_bodies hO.tidy en index deps hH ini log
    (Lib.bodies_keep hO.tidy cached hO.kind en index deps hH ini log hO.made hwell) p r hE
  obtain ⟨v, hv, hvi, hl⟩ := hu.view
  refine ⟨hE, h.good.valid, accesses_usual (hM.declared p (enters_mem hE) att hu.attached v (view_mem hv) hvi), ?_⟩
  have := (hr att hu.attached hu.moved v hv).1 a l m (by rw [hvi]; exact hu.aspect) hl
  rw [hvi] at this
  exact this

/-- C97, a transfer then a pass (partial: as `transfers_ordered_partial`). A transfer command, recorded by a pass that uses the
image or after it, and then a pass that uses the image: the barriers between order the transfer before what is done to images in
the layout the pass declares. -/
theorem transfer_then_pass_partial
    (hO : Run.Ordinary sepDS fmt V G en index passes (frameStart sepDS deps passes ini log) cached)
    (hd : Defined (startCtx deps)) (hH : Honest fmt V g0 (startCtx deps) G)
    (hwell : Lib.EntersWell sepDS G en index passes (frameStart sepDS deps passes ini log) cached)
    (hM : OnlyMoved sepDS G i cached passes) (hst : MapWell i (startCtx deps).images) {G' : GraphSt} {f : Frame}
    (e : record ⟨sepDS, en⟩ G deps index passes ini log = some (G', f))
    {k k' : Nat} {p p' : RunPass} {r r' : Rec} {att att' : Attachment} {a l m : Nat}
    (hu : UsesAt sepDS fmt G en index passes (frameStart sepDS deps passes ini log) k p r att i a l m)
    (hu' : UsesAt sepDS fmt G en index passes (frameStart sepDS deps passes ini log) k' p' r' att' i a l m)
    {pre mid : List Cmd} {x : Cmd} (hc : r'.cmds = r.cmds ++ pre ++ x :: mid) {w : Bool} (hx : Does i a l m w x) :
    (scope w = accessesIn (att'.getImageLayout sepDS) ∧ barriers i a l m mid = [])
    ∨ Ordered (scope w) (barriers i a l m mid) (accessesIn (att'.getImageLayout sepDS)) := by
  obtain ⟨-, h2⟩ := std_record hO hM hst e
  obtain ⟨hE, hv, hs', hg'⟩ := usesAt_state hO hH hwell hM hu'
  obtain ⟨cs, hcs, hf⟩ := never_forgotten_partial hO hd hH hwell e hu
  obtain ⟨cs', hcs', -⟩ := never_forgotten_partial hO hd hH hwell e hu'
  have hcm := (h2 p' r' hE).cmds
  have hcs2 : cs = pre ++ x :: (mid ++ cs') := by
    rw [hcs', hc] at hcs
    simpa using hcs.symm
  rw [hc] at hv hcm hg'
  rw [streamValid_append] at hv
  obtain ⟨-, hvx, hvm⟩ := hv
  have wx := hcm x (by simp)
  obtain ⟨s, hs, es, hgs⟩ := does_layout wx hvx hx
  have := chain_to hvm (fun c hk => hcm c (by simp [hk])) (fun c hk => hf c (by rw [hcs2]; simp [hk])) hs
    ((exec_other _ wx (does_quiet hx)).trans hgs) hs' (by
      refine Eq.trans ?_ hg'
      unfold execAll
      rw [List.foldl_append (l' := x :: mid)]
      rfl)
  rw [es] at this
  exact this

/-- C97, a pass then a transfer (partial: as `transfers_ordered_partial`). -/
theorem pass_then_transfer_partial
    (hO : Run.Ordinary sepDS fmt V G en index passes (frameStart sepDS deps passes ini log) cached)
    (hd : Defined (startCtx deps)) (hH : Honest fmt V g0 (startCtx deps) G)
    (hwell : Lib.EntersWell sepDS G en index passes (frameStart sepDS deps passes ini log) cached)
    (hM : OnlyMoved sepDS G i cached passes) (hst : MapWell i (startCtx deps).images) {G' : GraphSt} {f : Frame}
    (e : record ⟨sepDS, en⟩ G deps index passes ini log = some (G', f))
    {k : Nat} {p : RunPass} {r : Rec} {att : Attachment} {a l m : Nat}
    (hu : UsesAt sepDS fmt G en index passes (frameStart sepDS deps passes ini log) k p r att i a l m)
    {mid post : List Cmd} {y : Cmd} (hc : f.recd.cmds = r.cmds ++ mid ++ y :: post) {w : Bool} (hy : Does i a l m w y) :
    (accessesIn (att.getImageLayout sepDS) = scope w ∧ barriers i a l m mid = [])
    ∨ Ordered (accessesIn (att.getImageLayout sepDS)) (barriers i a l m mid) (scope w) := by
  obtain ⟨h1, -⟩ := std_record hO hM hst e
  obtain ⟨-, -, hs, hg⟩ := usesAt_state hO hH hwell hM hu
  have hv := (Lib.library_graph_valid_partial hO.tidy cached hO.kind en index deps hH ini log hO.made hwell G' f e).1
  obtain ⟨cs, hcs, hf⟩ := never_forgotten_partial hO hd hH hwell e hu
  have hcs2 : cs = mid ++ y :: post := by
    rw [hc] at hcs
    simpa using hcs.symm
  have hcm := h1.cmds
  rw [hcs] at hv hcm
  rw [streamValid_append, hcs2, streamValid_append] at hv
  obtain ⟨-, hvm, hvy, -⟩ := hv
  rw [hcs2] at hcm hf
  obtain ⟨t, ht, et, hgt⟩ := does_layout (hcm y (by simp)) hvy hy
  have := chain_to hvm (fun c hk => hcm c (by simp [hk])) (fun c hk => hf c (by simp [hk])) hs hg ht hgt
  rw [et] at this
  exact this

/-- C97, a pass then a pass (partial: as `transfers_ordered_partial`). -/
theorem pass_then_pass_partial
    (hO : Run.Ordinary sepDS fmt V G en index passes (frameStart sepDS deps passes ini log) cached)
    (hd : Defined (startCtx deps)) (hH : Honest fmt V g0 (startCtx deps) G)
    (hwell : Lib.EntersWell sepDS G en index passes (frameStart sepDS deps passes ini log) cached)
    (hM : OnlyMoved sepDS G i cached passes) (hst : MapWell i (startCtx deps).images) {G' : GraphSt} {f : Frame}
    (e : record ⟨sepDS, en⟩ G deps index passes ini log = some (G', f))
    {k k' : Nat} {p p' : RunPass} {r r' : Rec} {att att' : Attachment} {a l m : Nat}
    (hu : UsesAt sepDS fmt G en index passes (frameStart sepDS deps passes ini log) k p r att i a l m)
    (hu' : UsesAt sepDS fmt G en index passes (frameStart sepDS deps passes ini log) k' p' r' att' i a l m)
    {mid : List Cmd} (hc : r'.cmds = r.cmds ++ mid) :
    (accessesIn (att.getImageLayout sepDS) = accessesIn (att'.getImageLayout sepDS) ∧ barriers i a l m mid = [])
    ∨ Ordered (accessesIn (att.getImageLayout sepDS)) (barriers i a l m mid) (accessesIn (att'.getImageLayout sepDS)) := by
  obtain ⟨-, h2⟩ := std_record hO hM hst e
  obtain ⟨-, -, hs, hg⟩ := usesAt_state hO hH hwell hM hu
  obtain ⟨hE, hv, hs', hg'⟩ := usesAt_state hO hH hwell hM hu'
  obtain ⟨cs, hcs, hf⟩ := never_forgotten_partial hO hd hH hwell e hu
  obtain ⟨cs', hcs', -⟩ := never_forgotten_partial hO hd hH hwell e hu'
  have hcm := (h2 p' r' hE).cmds
  have hcs2 : cs = mid ++ cs' := by
    rw [hcs', hc] at hcs
    simpa using hcs.symm
  rw [hc] at hv hcm hg'
  rw [streamValid_append] at hv
  exact chain_to hv.2 (fun c hk => hcm c (by simp [hk])) (fun c hk => hf c (by rw [hcs2]; simp [hk])) hs hg hs' (by
      refine Eq.trans ?_ hg'
      unfold execAll
      rw [List.foldl_append])

end Frames

/-! ### The hypotheses are met -/

theorem e_moved : OnlyMoved false xG 2 Lib.noObj Lib.ePasses := by
  have hempty : ∀ m : LayoutMap, m = LayoutMap.empty → MapWell 2 m := by
    rintro m rfl l k s h
    simp [LayoutMap.empty, LayoutMap.at] at h
  refine ⟨⟨?_, ?_, ?_, ?_, ?_⟩, hempty _ rfl, hempty _ rfl⟩
  · intro p hp a ha ht
    exfalso
    simp only [Lib.ePasses, List.mem_cons, List.not_mem_nil, or_false] at hp
    rcases hp with rfl | rfl | rfl
    · simp only [Lib.eCopy, Lib.eCopy0, List.mem_cons, List.not_mem_nil, or_false] at ha
      rcases ha with rfl | rfl <;> exact absurd ht (by decide)
    · simp only [Lib.eMips, Lib.eMips0, List.mem_cons, List.not_mem_nil, or_false] at ha
      subst ha
      exact absurd ht (by decide)
    · simp only [Lib.eSample, List.mem_cons, List.not_mem_nil, or_false] at ha
      subst ha
      exact absurd ht (by decide)
  · intro p hp a ha v hv hi
    simp only [Lib.ePasses, List.mem_cons, List.not_mem_nil, or_false] at hp
    rcases hp with rfl | rfl | rfl
    · simp only [Lib.eCopy, Lib.eCopy0, List.mem_cons, List.not_mem_nil, or_false] at ha
      rcases ha with rfl | rfl <;> decide
    · simp only [Lib.eMips, Lib.eMips0, List.mem_cons, List.not_mem_nil, or_false] at ha
      subst ha
      decide
    · simp only [Lib.eSample, List.mem_cons, List.not_mem_nil, or_false] at ha
      subst ha
      decide
  · intro p hp va hva
    simp only [Lib.ePasses, List.mem_cons, List.not_mem_nil, or_false] at hp
    rcases hp with rfl | rfl | rfl <;> simp [Lib.eCopy, Lib.eCopy0, Lib.eMips, Lib.eMips0, Lib.eSample] at hva
  · intro p hp
    have hk := Lib.example_kinds p hp
    simp only [Lib.ePasses, List.mem_cons, List.not_mem_nil, or_false] at hp
    rcases hp with rfl | rfl | rfl
    · exact .copies (fun _ => true) ⟨64, 64, 1⟩ Layout.undefined (fun _ _ => rfl) (fun _ => Or.inl rfl)
    · exact .mipmaps _ _ Lib.example_mipmaps
    · exact .uses fun index r => ⟨[.work 3], by simp [CallWell], rfl⟩
  · intro l m s h
    simp [xG, Images.toMap, OMap.find, LayoutMap.at] at h

theorem e_start : MapWell 2 (startCtx []).images := by
  intro l k s h
  simp [startCtx, Ctx.new, LayoutMap.empty, LayoutMap.at] at h

theorem e_ordinary : Run.Ordinary false (fun _ => 37) Lib.eV xG (fun _ => true) (fun _ => 0) Lib.ePasses
    (frameStart false [] Lib.ePasses (fun _ _ => false) []) Lib.noObj :=
  ⟨Lib.example_views, Lib.example_kinds, fun _ _ _ h => by simp [Lib.noObj] at h, fun p r he => (Lib.example_well p r he).2⟩

set_option maxRecDepth 20000 in
/-- The graph of Library.lean: the copy that writes the first level is ordered before the sampling of it by the last pass,
through the barriers that mipmap generation records. -/
theorem example_ordered : ∃ G' f r', record ⟨false, fun _ => true⟩ xG [] (fun _ => 0) Lib.ePasses (fun _ _ => false) [] = some (G', f)
    ∧ RPass.enteredRec ⟨false, fun _ => true⟩ xG (fun _ => 0) Lib.ePasses (frameStart false [] Lib.ePasses (fun _ _ => false) []) 2
      = some r'
    ∧ (∃ x, r'.cmds[2]? = some x ∧ Writes 2 0 0 0 x) ∧ (barriers 2 0 0 0 (r'.cmds.drop 3)).length = 2
    ∧ Ordered transferWrite (barriers 2 0 0 0 (r'.cmds.drop 3)) sampling := by
  have h : (record ⟨false, fun _ => true⟩ xG [] (fun _ => 0) Lib.ePasses (fun _ _ => false) []).isSome = true := by decide
  obtain ⟨⟨G', f⟩, e⟩ := Option.isSome_iff_exists.1 h
  have hr : ((RPass.enteredRec ⟨false, fun _ => true⟩ xG (fun _ => 0) Lib.ePasses
      (frameStart false [] Lib.ePasses (fun _ _ => false) []) 0).map fun r => r.cmds)
      = some [.imageBarrier 1 ⟨1, 0, 1, 0, 1⟩ ⟨0, 16384⟩ ⟨2048, 4096⟩ 0 6, .imageBarrier 2 ⟨1, 0, 3, 0, 1⟩ ⟨0, 16384⟩ ⟨4096, 4096⟩ 0 7] := by
    decide
  obtain ⟨r, er, hr⟩ := Option.map_eq_some_iff.1 hr
  have hr' : ((RPass.enteredRec ⟨false, fun _ => true⟩ xG (fun _ => 0) Lib.ePasses
      (frameStart false [] Lib.ePasses (fun _ _ => false) []) 2).map fun r => r.cmds)
      = some [.imageBarrier 1 ⟨1, 0, 1, 0, 1⟩ ⟨0, 16384⟩ ⟨2048, 4096⟩ 0 6, .imageBarrier 2 ⟨1, 0, 3, 0, 1⟩ ⟨0, 16384⟩ ⟨4096, 4096⟩ 0 7,
        .copyImage 1 6 ⟨1, 0, 1, 0, 1⟩ 2 7 ⟨1, 0, 1, 0, 1⟩ 64 64 1,
        .imageBarrier 2 ⟨1, 0, 1, 0, 1⟩ ⟨4096, 4096⟩ ⟨2048, 4096⟩ 7 6,
        .blitImage 2 6 ⟨1, 0, 1, 0, 1⟩ ⟨0, 0, 0, 64, 64, 1⟩ 2 7 ⟨1, 1, 1, 0, 1⟩ ⟨0, 0, 0, 32, 32, 1⟩ 1,
        .imageBarrier 2 ⟨1, 0, 1, 0, 1⟩ ⟨2048, 4096⟩ ⟨32, 128⟩ 6 5,
        .imageBarrier 2 ⟨1, 1, 1, 0, 1⟩ ⟨4096, 4096⟩ ⟨2048, 4096⟩ 7 6,
        .blitImage 2 6 ⟨1, 1, 1, 0, 1⟩ ⟨0, 0, 0, 32, 32, 1⟩ 2 7 ⟨1, 2, 1, 0, 1⟩ ⟨0, 0, 0, 16, 16, 1⟩ 1,
        .imageBarrier 2 ⟨1, 1, 1, 0, 1⟩ ⟨2048, 4096⟩ ⟨32, 128⟩ 6 5,
        .imageBarrier 2 ⟨1, 2, 1, 0, 1⟩ ⟨4096, 4096⟩ ⟨32, 128⟩ 7 5] := by decide
  obtain ⟨r', er', hr'⟩ := Option.map_eq_some_iff.1 hr'
  have hw : Writes 2 0 0 0 (.copyImage 1 6 ⟨1, 0, 1, 0, 1⟩ 2 7 ⟨1, 0, 1, 0, 1⟩ 64 64 1) := ⟨rfl, by decide⟩
  refine ⟨G', f, r', e, er', ⟨_, by rw [hr']; rfl, hw⟩, by rw [hr']; decide, ?_⟩
  have hu : UsesAt false (fun _ => 37) xG (fun _ => true) (fun _ => 0) Lib.ePasses
      (frameStart false [] Lib.ePasses (fun _ _ => false) []) 0 Lib.eCopy r (ImageAdder.transferOutput.attach 1 0 [Lib.eDst]) 2 0 0 0 :=
    ⟨rfl, er, by simp [Lib.eCopy, Lib.eCopy0], by decide, ⟨Lib.eDst, rfl, rfl, by decide⟩, by unfold HasAspect; decide⟩
  have hu' : UsesAt false (fun _ => 37) xG (fun _ => true) (fun _ => 0) Lib.ePasses
      (frameStart false [] Lib.ePasses (fun _ _ => false) []) 2 Lib.eSample r' (ImageAdder.sampled.attach 3 0 [Lib.eDst]) 2 0 0 0 :=
    ⟨rfl, er', by simp [Lib.eSample], by decide, ⟨Lib.eDst, rfl, rfl, by decide⟩, by unfold HasAspect; decide⟩
  rcases transfer_then_pass_partial e_ordinary empty_defined Lib.example_honest Lib.example_well e_moved e_start e hu hu' (pre := [])
    (mid := r'.cmds.drop 3) (x := .copyImage 1 6 ⟨1, 0, 1, 0, 1⟩ 2 7 ⟨1, 0, 1, 0, 1⟩ 64 64 1) (by rw [hr, hr']; rfl) (w := true) hw with
    ⟨-, h⟩ | h
  · rw [hr'] at h
    exact absurd h (by decide)
  · exact h

/-! ### What is not ordered -/

/-- The copy of the example, made again by another pass. -/
def eAgain : RunPass := { Lib.eCopy with id := 4 }

set_option maxRecDepth 20000 in
/-- C97 does not extend to two writes: when two passes copy to the same image one after the other, nothing is recorded between
the two copies. -/
theorem two_writes_unordered : ∃ G' f x y,
    record ⟨false, fun _ => true⟩ xG [] (fun _ => 0) [Lib.eCopy, eAgain] (fun _ _ => false) [] = some (G', f)
    ∧ f.recd.cmds[2]? = some x ∧ f.recd.cmds[3]? = some y ∧ Writes 2 0 0 0 x ∧ Writes 2 0 0 0 y := by
  have h : ((record ⟨false, fun _ => true⟩ xG [] (fun _ => 0) [Lib.eCopy, eAgain] (fun _ _ => false) []).map fun x =>
      x.2.recd.cmds.drop 2) = some [.copyImage 1 6 ⟨1, 0, 1, 0, 1⟩ 2 7 ⟨1, 0, 1, 0, 1⟩ 64 64 1,
        .copyImage 1 6 ⟨1, 0, 1, 0, 1⟩ 2 7 ⟨1, 0, 1, 0, 1⟩ 64 64 1] := by decide
  obtain ⟨⟨G', f⟩, e, h⟩ := Option.map_eq_some_iff.1 h
  have h2 : ∀ n : Nat, f.recd.cmds[2 + n]? = (f.recd.cmds.drop 2)[n]? := fun n => by rw [List.getElem?_drop]
  refine ⟨G', f, .copyImage 1 6 ⟨1, 0, 1, 0, 1⟩ 2 7 ⟨1, 0, 1, 0, 1⟩ 64 64 1, .copyImage 1 6 ⟨1, 0, 1, 0, 1⟩ 2 7 ⟨1, 0, 1, 0, 1⟩ 64 64 1, e, (h2 0).trans (by rw [h]; rfl), (h2 1).trans (by rw [h]; rfl), ⟨rfl, by decide⟩, ⟨rfl, by decide⟩⟩

/-- No access is ordered after anything by barriers the last of which goes to the accesses used for layout GENERAL. -/
theorem general_never_ordered (s src t : AccessState) (ht : t.access ≠ 0) : ∀ (bs : List (AccessState × AccessState)),
    ¬ Ordered s (bs ++ [(src, (makeLayoutState Layout.general).state)]) t
  | [], h => by
    have := h.2.2
    rw [show (makeLayoutState Layout.general).state.access = 0 by decide] at this
    unfold Among at this
    rw [Nat.and_zero] at this
    exact ht this.symm
  | [b], h => general_never_ordered b.2 src t ht [] h.2.2
  | b :: b' :: bs, h => general_never_ordered b.2 src t ht (b' :: bs) h.2.2

/-- A compute pass that stores in an image, cleared first. -/
def eStore : RunPass :=
  ⟨5, 1, true, ⟨Access.shaderRead, Stage.computeShader⟩, [ImageAdder.clearableOutputStorage.attach 5 0 [Lib.eDst]], [], [],
    fun _ r => r.emit (.work 5)⟩

set_option maxRecDepth 20000 in
/-- C97 does not extend to storage images: the clear of a cleared storage image is not ordered before the accesses of the pass
(`VK_ACCESS_SHADER_READ_BIT`, `VK_ACCESS_SHADER_WRITE_BIT` in `VK_PIPELINE_STAGE_COMPUTE_SHADER_BIT`). -/
theorem clear_then_storage_unordered : ∃ r x, RPass.enteredRec ⟨false, fun _ => true⟩ xG (fun _ => 0) [eStore]
      (frameStart false [] [eStore] (fun _ _ => false) []) 0 = some r
    ∧ r.cmds[1]? = some x ∧ Writes 2 0 0 0 x ∧ (barriers 2 0 0 0 (r.cmds.drop 2)).length = 1
    ∧ ∀ t : AccessState, t.access ≠ 0 → ¬ Ordered transferWrite (barriers 2 0 0 0 (r.cmds.drop 2)) t := by
  have hr : ((RPass.enteredRec ⟨false, fun _ => true⟩ xG (fun _ => 0) [eStore]
      (frameStart false [] [eStore] (fun _ _ => false) []) 0).map fun r => r.cmds.drop 1)
      = some [.clearImage true 2 7 ⟨1, 0, 3, 0, 1⟩ 0, .imageBarrier 2 ⟨1, 0, 3, 0, 1⟩ ⟨4096, 4096⟩ ⟨0, 8192⟩ 7 1] := by
    decide
  obtain ⟨r, er, hr⟩ := Option.map_eq_some_iff.1 hr
  have h2 : r.cmds.drop 2 = [.imageBarrier 2 ⟨1, 0, 3, 0, 1⟩ ⟨4096, 4096⟩ ⟨0, 8192⟩ 7 1] := by
    rw [show 2 = 1 + 1 from rfl, ← List.drop_drop, hr]; rfl
  refine ⟨r, .clearImage true 2 7 ⟨1, 0, 3, 0, 1⟩ 0, er, ?_, ⟨rfl, by decide⟩, by rw [h2]; decide, ?_⟩
  · have h1 : r.cmds[1]? = (r.cmds.drop 1)[0]? := by rw [List.getElem?_drop]
    rw [h1, hr]; rfl
  · intro t ht
    rw [h2]
    exact general_never_ordered transferWrite ⟨4096, 4096⟩ t ht []

end Verif.Haz
