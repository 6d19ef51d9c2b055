import Verif.Props.Recording
/-
C45 (blit regions) and C46 (library-provided implicit actions run in the right layouts).
-/
namespace Verif.Gpu
open Verif.Rec

/-! ### C45 -/

/-- Corners of the rectangle of the given offset and extent, in the first slice. -/
def rect (x y : Int) (w h : Nat) : Corners := ⟨x, y, 0, x + w, y + h, 1⟩

/-- Corners of the box of the given offset and extent. -/
def box (x y z : Int) (w h d : Nat) : Corners := ⟨x, y, z, x + w, y + h, z + d⟩

/-- The blits of a stream, with their corners and filter. -/
def blits (cs : List Cmd) : List (Corners × Corners × Nat) :=
  cs.filterMap fun | .blitImage _ _ _ s _ _ _ d f => some (s, d, f) | _ => none

theorem blits_append (a b : List Cmd) : blits (a ++ b) = blits a ++ blits b := by
  unfold blits
  exact List.filterMap_append

theorem blits_viewBarrier (env : Env) (r : Rec) (v : View) (i : Nat) (w : LayoutState) (f : Bool) :
    blits (r.viewBarrier env v i w f).cmds = blits r.cmds := by
  unfold Rec.viewBarrier
  obtain ⟨src, -, ⟨-, e⟩ | ⟨-, e⟩⟩ := imageBarrier_cases env r v.image v.viewType v.range i w f <;> rw [e]
  rw [blits_append]; simp [blits]

theorem blits_finalBarrier (env : Env) (r : Rec) (v : View) (f : Nat) :
    blits (r.finalBarrier env v f).cmds = blits r.cmds := by
  unfold Rec.finalBarrier
  split
  · exact blits_viewBarrier _ _ _ _ _ _
  · rfl

/-- C45 (partial: only for zero offsets). The implicit blit action records exactly one blit, with the given filter, and its regions are
the requested rectangles exactly when both offsets are zero. -/
theorem blit_region_partial (env : Env) (r : Rec) (src dst : View) (sx sy : Int) (sw sh : Nat) (dx dy : Int)
    (dw dh filter final : Nat) :
    ∃ s d, blits (r.doBlit env src dst sx sy sw sh dx dy dw dh filter final).cmds = blits r.cmds ++ [(s, d, filter)]
      ∧ (s = rect sx sy sw sh ∧ d = rect dx dy dw dh ↔ (sx = 0 ∧ sy = 0 ∧ dx = 0 ∧ dy = 0)) := by
  refine ⟨⟨sx, sy, 0, sw, sh, 1⟩, ⟨dx, dy, 0, dw, dh, 1⟩, ?_, ?_⟩
  · unfold Rec.doBlit
    simp only
    rw [blits_finalBarrier]
    unfold Rec.emit
    rw [blits_append, blits_viewBarrier, blits_viewBarrier]
    rfl
  · simp [rect]
    omega

/-- C45 is false in general. -/
theorem blit_region_wrong :
    ∃ (src dst : View) (sx sy : Int) (sw sh : Nat), 0 ≤ sx ∧ 0 ≤ sy ∧
      ∀ p ∈ blits (start.doBlit exEnv src dst sx sy sw sh 0 0 sw sh 1 5).cmds, p.1 ≠ rect sx sy sw sh := by
  let v : View := ⟨7, bImg, .d2, 37, ⟨1, 0, 1, 0, 1⟩⟩
  refine ⟨v, v, 16, 16, 16, 16, by decide, by decide, ?_⟩
  intro p hp
  obtain ⟨s, d, h1, h2⟩ := blit_region_partial exEnv start v v 16 16 16 16 0 0 16 16 1 5
  have e : blits (start.doBlit exEnv v v 16 16 16 16 0 0 16 16 1 5).cmds = [(⟨16, 16, 0, 16, 16, 1⟩, ⟨0, 0, 0, 16, 16, 1⟩, 1)] := by
    decide
  have hp' : p ∈ [((⟨16, 16, 0, 16, 16, 1⟩ : Corners), (⟨0, 0, 0, 16, 16, 1⟩ : Corners), 1)] := by rw [← e]; exact hp
  simp at hp'
  subst hp'
  decide

/-! ### C46 -/

/-- Invariant of recordings over a tidy family of views. -/
structure Good (sepDS : Bool) (fmt : Nat → Nat) (V : View → Prop) (g0 : Layouts) (r : Rec) : Prop where
  mirrors : Mirrors fmt g0 r.ctx.images (execAll g0 r.cmds)
  valid : StreamValid g0 r.cmds
  uniform : ∀ v, V v → Uniform r.ctx.images ⟨v.image, v.viewType, v.range, 0, ⟨0, ⟨0, 0⟩⟩, false⟩
  pending : ∀ t ∈ r.ctx.implicit, ActionIn V t.action

def viewReq (v : View) (i : Nat) (w : LayoutState) (f : Bool) : Request := ⟨v.image, v.viewType, v.range, i, w, f⟩

theorem viewBarrier_request (env : Env) (r : Rec) (v : View) (i : Nat) (w : LayoutState) (f : Bool) :
    r.viewBarrier env v i w f = request env r (viewReq v i w f) := rfl

theorem ordinary_of_tidy {sepDS : Bool} {fmt : Nat → Nat} {V : View → Prop} (hV : Tidy sepDS fmt V) {v : View}
    (hv : V v) (i : Nat) {w : LayoutState} (hw : w.layout ≠ Layout.undefined) (f : Bool) (en : Nat → Bool) :
    Ordinary ⟨sepDS, en⟩ fmt (viewReq v i w f) :=
  ⟨hV.format v hv, hV.view v hv, hV.aspect v hv, hw⟩

theorem good_barrier {sepDS : Bool} {fmt : Nat → Nat} {V : View → Prop} {g0 : Layouts} (hV : Tidy sepDS fmt V)
    (en : Nat → Bool) {r : Rec} (h : Good sepDS fmt V g0 r) {v : View} (hv : V v) {i : Nat} {w : LayoutState}
    (hw : w.layout ≠ Layout.undefined) (f : Bool)
    (hi : i = Layout.undefined ∨ ∀ a l m, v.range.Has l m → g0 v.image.id a l m = i) :
    Good sepDS fmt V g0 (r.viewBarrier ⟨sepDS, en⟩ v i w f) := by
  have ho := ordinary_of_tidy hV hv i hw f en
  have hu : Uniform r.ctx.images (viewReq v i w f) := h.uniform v hv
  rw [viewBarrier_request]
  refine ⟨mirrors_step _ fmt g0 r _ ho h.mirrors, valid_step _ fmt g0 r _ ho hi h.mirrors hu h.valid, ?_, ?_⟩
  · intro u hu'
    have := uniform_step ⟨sepDS, en⟩ fmt r (viewReq u 0 ⟨0, ⟨0, 0⟩⟩ false) (viewReq v i w f) ho ?_ (h.uniform u hu')
    · exact this
    · intro hid
      rcases hV.apart u v hu' hv with (h1 | h1) | h1
      · exact absurd hid h1
      · exact Or.inr h1
      · exact Or.inl h1.2
  · have := (viewBarrier_keeps ⟨sepDS, en⟩ r v i w f 0).1
    rw [← viewBarrier_request, this]
    exact h.pending

/-- After a barrier without initial layout, the GPU has all the view in the wanted layout. -/
theorem gpu_after_barrier {sepDS : Bool} {fmt : Nat → Nat} {V : View → Prop} {g0 : Layouts}
    (hV : Tidy sepDS fmt V) (en : Nat → Bool) {r : Rec} (h : Good sepDS fmt V g0 r) {v : View} (hv : V v)
    {w : LayoutState} (hw : w.layout ≠ Layout.undefined) (f : Bool) (a l m : Nat)
    (ha : HasAspect (fmt v.image.id) a) (hl : v.range.Has l m) :
    execAll g0 (r.viewBarrier ⟨sepDS, en⟩ v Layout.undefined w f).cmds v.image.id a l m = w.layout := by
  have ho := ordinary_of_tidy hV hv Layout.undefined hw f en
  have hg := (good_barrier hV en h hv hw f (Or.inl rfl)).mirrors v.image.id a l m ha
  have hne : v.range.NonEmpty := (Range.nonEmpty_iff _).2 ⟨l, m, hl⟩
  have := barrier_tracks_wanted_partial ⟨sepDS, en⟩ r (viewReq v Layout.undefined w f) v.range
    (designates_plain ho.view) hne hw (by
      rcases h.uniform v hv with h1 | h1
      · exact Or.inr ⟨h1, fun e => hw e.symm⟩
      · exact Or.inl h1)
  obtain ⟨t, h1, h2, -⟩ := this.1 l m hl
  rw [← viewBarrier_request] at h1
  simp only [viewReq] at h1
  rw [h1] at hg
  exact hg.trans h2

/-- A barrier leaves the GPU's layout of views apart from it alone. -/
theorem gpu_frame_barrier {sepDS : Bool} (en : Nat → Bool) (g0 : Layouts) (r : Rec) (v u : View) (i : Nat)
    (w : LayoutState) (f : Bool) (hap : View.Apart u v) (a l m : Nat) (hl : u.range.Has l m) :
    execAll g0 (r.viewBarrier ⟨sepDS, en⟩ v i w f).cmds u.image.id a l m = execAll g0 r.cmds u.image.id a l m := by
  unfold Rec.viewBarrier
  obtain ⟨src, -, ⟨-, e⟩ | ⟨-, e⟩⟩ := imageBarrier_cases ⟨sepDS, en⟩ r v.image v.viewType v.range i w f <;> rw [e]
  rw [execAll_snoc]
  simp only [exec]
  rw [if_neg]
  rintro ⟨h1, h2⟩
  rcases hap with h3 | h3
  · exact h3 h1
  · exact h3 l m ⟨hl, (adaptRange_has _ _ _ _ _).1 h2.2⟩

theorem good_final {sepDS : Bool} {fmt : Nat → Nat} {V : View → Prop} {g0 : Layouts} (hV : Tidy sepDS fmt V)
    (en : Nat → Bool) {r : Rec} (h : Good sepDS fmt V g0 r) {v : View} (hv : V v) (final : Nat) :
    Good sepDS fmt V g0 (r.finalBarrier ⟨sepDS, en⟩ v final) := by
  unfold Rec.finalBarrier
  split
  · rename_i hf
    have hf' : final ≠ Layout.undefined := by simpa using hf
    exact good_barrier hV en h hv (w := makeLayoutState final) hf' false (Or.inl rfl)
  · exact h

theorem good_emit {sepDS : Bool} {fmt : Nat → Nat} {V : View → Prop} {g0 : Layouts} {r : Rec}
    (h : Good sepDS fmt V g0 r) (c : Cmd) (hx : ∀ g, exec g c = g) (hv : Valid (execAll g0 r.cmds) c) :
    Good sepDS fmt V g0 (r.emit c) := by
  refine ⟨?_, ?_, h.uniform, h.pending⟩
  · show Mirrors _ _ r.ctx.images (execAll g0 (r.cmds ++ [c]))
    rw [execAll_snoc, hx]
    exact h.mirrors
  · show StreamValid g0 (r.cmds ++ [c])
    rw [streamValid_snoc]
    exact ⟨h.valid, hv⟩

theorem firstLayer_selects {r : Range} {a l m : Nat} (hne : r.NonEmpty) (h : Selects (firstLayer r) a l m) :
    Selects r a l m := by
  refine ⟨h.1, ?_⟩
  have := h.2
  unfold firstLayer Range.Has at this
  unfold Range.Has
  unfold Range.NonEmpty at hne
  simp only at this
  omega

theorem aspect_of_whole {sepDS : Bool} {f a asp : Nat} (h : WholeAspect sepDS f asp) (ha : asp.testBit a = true) :
    HasAspect f a := by
  unfold HasAspect
  rcases h with h | ⟨_, h2, h3⟩
  · rw [← h]; exact ha
  · rw [h2, show (6 : Nat) = Aspect.depth ||| Aspect.stencil from by decide, Nat.testBit_or]
    rcases h3 with h3 | h3 <;> rw [h3] at ha <;> simp [ha]

theorem good_transfer {sepDS : Bool} {fmt : Nat → Nat} {V : View → Prop} {g0 : Layouts} (hV : Tidy sepDS fmt V)
    (en : Nat → Bool) {r : Rec} (h : Good sepDS fmt V g0 r) {s d : View} (hs : V s) (hd : V d)
    (hap : View.Apart s d) (hns : s.range.NonEmpty) (hnd : d.range.NonEmpty) (c : Cmd) (hx : ∀ g, exec g c = g)
    (hc : ∀ g, Valid g c ↔ (∀ a l m, Selects (firstLayer s.range) a l m → g s.image.id a l m = Layout.transferSrc)
      ∧ (∀ a l m, Selects (firstLayer d.range) a l m → g d.image.id a l m = Layout.transferDst)) :
    Good sepDS fmt V g0
      (((r.viewBarrier ⟨sepDS, en⟩ s Layout.undefined (makeLayoutState Layout.transferSrc)).viewBarrier ⟨sepDS, en⟩ d
        Layout.undefined (makeLayoutState Layout.transferDst)).emit c) := by
  have g1 := good_barrier (w := makeLayoutState Layout.transferSrc) hV en h hs (by decide) false (Or.inl rfl)
  have g2 := good_barrier (w := makeLayoutState Layout.transferDst) hV en g1 hd (by decide) false (Or.inl rfl)
  apply good_emit g2 c hx
  rw [hc]
  constructor
  · intro a l m hsel
    have hsel := firstLayer_selects hns hsel
    rw [gpu_frame_barrier en g0 _ d s _ _ _ hap a l m hsel.2]
    exact gpu_after_barrier hV en h hs (by decide) false a l m
      (by rw [← hV.format s hs]; exact aspect_of_whole (hV.aspect s hs) hsel.1) hsel.2
  · intro a l m hsel
    have hsel := firstLayer_selects hnd hsel
    exact gpu_after_barrier hV en g1 hd (by decide) false a l m
      (by rw [← hV.format d hd]; exact aspect_of_whole (hV.aspect d hd) hsel.1) hsel.2

theorem good_clear {sepDS : Bool} {fmt : Nat → Nat} {V : View → Prop} {g0 : Layouts} (hV : Tidy sepDS fmt V)
    (en : Nat → Bool) {r : Rec} (h : Good sepDS fmt V g0 r) {d : View} (hd : V d) (value final : Nat) :
    Good sepDS fmt V g0 (r.doClear ⟨sepDS, en⟩ d value final) := by
  unfold Rec.doClear
  simp only
  apply good_final hV en _ hd
  apply good_emit (good_barrier (w := makeLayoutState Layout.transferDst) hV en h hd (by decide) false (Or.inl rfl))
  · intro g; rfl
  · intro a l m hsel
    exact gpu_after_barrier hV en h hd (by decide) false a l m
      (by rw [← hV.format d hd]; exact aspect_of_whole (hV.aspect d hd) hsel.1) hsel.2

theorem good_erase {sepDS : Bool} {fmt : Nat → Nat} {V : View → Prop} {g0 : Layouts} {r : Rec}
    (h : Good sepDS fmt V g0 r) (p : Implicit → Bool) :
    Good sepDS fmt V g0 { r with ctx := { r.ctx with implicit := r.ctx.implicit.eraseP p } } :=
  ⟨h.mirrors, h.valid, h.uniform, fun t ht => h.pending t (List.mem_of_mem_eraseP ht)⟩

theorem good_runImplicit {sepDS : Bool} {fmt : Nat → Nat} {V : View → Prop} {g0 : Layouts} (hV : Tidy sepDS fmt V)
    (en : Nat → Bool) : ∀ (n : Nat) (r : Rec) (v : View), r.ctx.implicit.length = n →
    Good sepDS fmt V g0 r → Good sepDS fmt V g0 (r.runImplicit ⟨sepDS, en⟩ v) := by
  intro n
  induction n using Nat.strongRecOn with
  | ind n ih =>
    intro r v hn h
    cases hf : r.ctx.implicit.find? (Implicit.isFor v) with
    | none => rw [runImplicit_none _ _ _ hf]; exact h
    | some t =>
      rw [runImplicit_some _ _ _ _ hf]
      have hlt := eraseP_lt hf
      have hact := h.pending t (List.mem_of_find?_eq_some hf)
      have he := good_erase h (Implicit.isFor v)
      simp only
      split
      · exact he
      · split
        · exact he
        · exact good_emit he _ (fun _ => rfl) trivial
        · rename_i src dst w hh final hj
          rw [hj] at hact
          have h2 := ih _ (by rw [← hn]; exact hlt) _ src rfl he
          unfold Rec.doCopy
          simp only
          exact good_final hV en (good_transfer hV en h2 hact.1 hact.2.1 hact.2.2.1 hact.2.2.2.2 hact.2.2.2.1 _
            (fun _ => rfl) (fun _ => Iff.rfl)) hact.2.1 final
        · rename_i src dst sx sy sw sh dx dy dw dh filter final hj
          rw [hj] at hact
          have h2 := ih _ (by rw [← hn]; exact hlt) _ src rfl he
          unfold Rec.doBlit
          simp only
          exact good_final hV en (good_transfer hV en h2 hact.1 hact.2.1 hact.2.2.1 hact.2.2.2.2 hact.2.2.2.1 _
            (fun _ => rfl) (fun _ => Iff.rfl)) hact.2.1 final
        · rename_i dst value final hj
          rw [hj] at hact
          exact good_clear hV en he hact value final

theorem good_history {sepDS : Bool} {fmt : Nat → Nat} {V : View → Prop} (hV : Tidy sepDS fmt V)
    {g0 : Layouts} (cs : List Call) (hcs : ∀ c ∈ cs, CallIn V g0 c) :
    Good sepDS fmt V g0 (performAll sepDS start cs) := by
  induction cs using snocInduction with
  | nil =>
    refine ⟨?_, trivial, fun v _ => Or.inl fun l m _ => rfl, by simp [performAll, start, Ctx.new]⟩
    intro i a l v _
    simp [performAll, start, Ctx.new, LayoutMap.empty, LayoutMap.at, execAll]
  | snoc cs c ih =>
    have ih := ih fun x hx => hcs x (by simp [hx])
    have hc := hcs c (by simp)
    have e : performAll sepDS start (cs ++ [c]) = perform sepDS (performAll sepDS start cs) c := by
      simp [performAll]
    rw [e]
    generalize performAll sepDS start cs = r at *
    cases c with
    | barrier v i w f => exact good_barrier hV _ ih hc.1 hc.2.1 f hc.2.2
    | buffer q =>
      show Good sepDS fmt V g0 (bufRequest r q)
      obtain ⟨s, hs⟩ := sourceState_exists r.ctx q
      rw [bufferBarrier_eq r q s hs]
      split
      · have := good_emit ih (.bufferBarrier q.buffer q.offset q.size s q.wanted) (fun _ => rfl) trivial
        exact ⟨this.mirrors, this.valid, this.uniform, this.pending⟩
      · exact ih
    | register t =>
      refine ⟨ih.mirrors, ih.valid, ih.uniform, ?_⟩
      intro u hu
      simp [perform, Rec.register] at hu
      rcases hu with hu | rfl
      · exact ih.pending u hu
      · exact hc
    | use v en => exact good_runImplicit hV en _ r v rfl ih
    | work k => exact good_emit ih (.work k) (fun _ => rfl) trivial

/-- C14 and C46 (partial: over tidy families of views, see C14). Over every history of barrier requests, buffer
barriers, registrations and uses, with passes enabled and disabled arbitrarily between calls, every recorded
command is valid when it executes: barriers state the real old layout, implicit copies and blits find their
source in TRANSFER_SRC and their destination in TRANSFER_DST, implicit clears find their target in
TRANSFER_DST. -/
theorem history_valid_partial (sepDS : Bool) (fmt : Nat → Nat) (V : View → Prop) (hV : Tidy sepDS fmt V)
    (g0 : Layouts) (cs : List Call) (hcs : ∀ c ∈ cs, CallIn V g0 c) :
    StreamValid g0 (performAll sepDS start cs).cmds
    ∧ Mirrors fmt g0 (performAll sepDS start cs).ctx.images (execAll g0 (performAll sepDS start cs).cmds) :=
  ⟨(good_history hV cs hcs).valid, (good_history hV cs hcs).mirrors⟩

/-- C46. The implicit copy leaves its destination in the final layout asked for. -/
theorem copy_leaves_final {sepDS : Bool} {fmt : Nat → Nat} {V : View → Prop} {g0 : Layouts}
    (hV : Tidy sepDS fmt V) (cs : List Call) (hcs : ∀ c ∈ cs, CallIn V g0 c) (s d : View) (w h final : Nat)
    (ha : ActionIn V (.copy s d w h final)) (hf : final ≠ Layout.undefined) (en : Nat → Bool) (a l m : Nat)
    (hasp : HasAspect (fmt d.image.id) a) (hl : d.range.Has l m) :
    execAll g0 ((performAll sepDS start cs).doCopy ⟨sepDS, en⟩ s d w h final).cmds d.image.id a l m = final := by
  have hg := good_history hV cs hcs
  unfold Rec.doCopy Rec.finalBarrier
  simp only
  rw [if_pos (by simpa using hf)]
  exact gpu_after_barrier hV en (good_transfer hV en hg ha.1 ha.2.1 ha.2.2.1 ha.2.2.2.2 ha.2.2.2.1 _
    (fun _ => rfl) (fun _ => Iff.rfl)) ha.2.1 (w := makeLayoutState final) hf false a l m hasp hl

def exV1 : View := ⟨1, bImg, .d2, 37, ⟨1, 0, 1, 0, 1⟩⟩
def exV2 : View := ⟨2, ⟨2, Format.d24s8, 1, 1, 64, 64, 1⟩, .d2, Format.d24s8, ⟨Aspect.depth, 0, 1, 0, 1⟩⟩
def exFmt2 : Nat → Nat := fun i => if i = 2 then Format.d24s8 else 37

/-- A colour and a depth/stencil view form a tidy family, and a history with a pending copy meets the
hypotheses of `history_valid_partial`. -/
example : Tidy false exFmt2 (fun v => v = exV1 ∨ v = exV2)
    ∧ (∀ c ∈ [Call.register ⟨0, exV2, .copy exV1 exV2 4 4 5⟩, .barrier exV1 0 (makeLayoutState 7) false,
        .use exV2 (fun _ => false)], CallIn (fun v => v = exV1 ∨ v = exV2) (fun _ _ _ _ => 0) c) := by
  refine ⟨⟨?_, ?_, ?_, ?_⟩, ?_⟩
  · rintro v (rfl | rfl) <;> rfl
  · rintro v (rfl | rfl) <;> decide
  · rintro v (rfl | rfl) <;> decide
  · rintro v w (rfl | rfl) (rfl | rfl)
    · exact Or.inr ⟨rfl, fun _ _ => Iff.rfl⟩
    · exact Or.inl (Or.inl (by decide))
    · exact Or.inl (Or.inl (by decide))
    · exact Or.inr ⟨rfl, fun _ _ => Iff.rfl⟩
  · intro c hc
    simp only [List.mem_cons, List.not_mem_nil, or_false] at hc
    rcases hc with rfl | rfl | rfl
    · exact ⟨Or.inl rfl, Or.inr rfl, Or.inl (by decide), by decide, by decide⟩
    · exact ⟨Or.inl rfl, by decide, Or.inl rfl⟩
    · trivial

end Verif.Gpu
