import Verif.Lemmas.RecordContext
/-
C11 (buffers), C12 – C15: barriers recorded through a `RecordContext`.
-/
namespace Verif.Gpu
open Verif.Rec

def exEnv : Env := ⟨false, fun _ => true⟩
def exFmt : Nat → Nat := fun _ => 37
def bImg : Image := ⟨1, 37, 4, 6, 64, 64, 1⟩
def exQ1 : Request := ⟨bImg, .d2, ⟨1, 0, 1, 0, 1⟩, 0, makeLayoutState Layout.transferDst, false⟩
def exQ2 : Request := ⟨bImg, .d2, ⟨1, 0, 1, 0, 1⟩, 0, makeLayoutState Layout.shaderReadOnly, false⟩
def exQ3 : Request := ⟨bImg, .d2Array, ⟨1, 1, 2, 0, 6⟩, 0, makeLayoutState Layout.general, true⟩

/-! ### C12 -/

/-- C12, frame: whatever happens, the tracked state of any subresource outside the view, or of another image, is
unchanged. -/
theorem barrier_frame (env : Env) (r : Rec) (q : Request) (a : Range) (ha : Designates q.img q.vt q.sub a)
    (i l m : Nat) (h : ¬ (i = q.img.id ∧ a.Has l m)) :
    (request env r q).ctx.images.at i l m = r.ctx.images.at i l m := by
  obtain ⟨src, -, ⟨-, e⟩ | ⟨-, e⟩⟩ :=
    imageBarrier_cases env r q.img q.vt q.sub q.initial q.wanted q.force <;> unfold request <;> rw [e]
  simp only [Ctx.setLayout, LayoutMap.at_setState]
  rw [if_neg]
  rintro ⟨h1, h2⟩
  exact h ⟨h1, (ha.has_iff l m).2 ((virtual_adapt q.img q.vt _ _ _ l m).1 h2)⟩

/-- C12, when a command was recorded: every subresource of the view is tracked in the wanted state. -/
theorem barrier_recorded_tracked (env : Env) (r : Rec) (q : Request) (a : Range)
    (ha : Designates q.img q.vt q.sub a) (hrec : (request env r q).cmds ≠ r.cmds) (l m : Nat) (h : a.Has l m) :
    (request env r q).ctx.images.at q.img.id l m = some q.wanted := by
  obtain ⟨src, -, ⟨-, e⟩ | ⟨-, e⟩⟩ :=
    imageBarrier_cases env r q.img q.vt q.sub q.initial q.wanted q.force
  · unfold request; rw [e]
    simp only [Ctx.setLayout, LayoutMap.at_setState]
    rw [if_pos ⟨trivial, (virtual_adapt q.img q.vt _ _ _ l m).2 ((ha.has_iff l m).1 h)⟩]
  · exact absurd (by unfold request; rw [e]) hrec

/-- The tracked state of the view is uniform: all its subresources in state `s`. -/
def UniformState (m : LayoutMap) (img : Nat) (a : Range) (s : LayoutState) : Prop :=
  ∀ l v, a.Has l v → m.at img l v = some s

/-- None of the view's subresources has a tracked state. -/
def Untracked (m : LayoutMap) (img : Nat) (a : Range) : Prop := ∀ l v, a.Has l v → m.at img l v = none

theorem getState_of_uniform {m : LayoutMap} {img : Image} {vt : ViewType} {r a : Range} {s : LayoutState}
    {sep : Bool} (ha : Designates img vt r a) (hne : a.NonEmpty) (h : UniformState m img.id a s) :
    m.getState img vt (adaptRange sep img.format r) = s := by
  obtain ⟨l0, v0, h0⟩ := a.nonEmpty_iff.1 hne
  have hv : ∀ l v, (getVirtualRange img vt (adaptRange sep img.format r)).Has l v ↔ a.Has l v :=
    fun l v => (virtual_adapt img vt _ _ _ l v).trans (ha.has_iff l v).symm
  apply LayoutMap.getState_uniform
  · exact ⟨l0, v0, (hv _ _).2 h0, by rw [h _ _ h0]; rfl⟩
  · intro l v t h1 h2
    rw [h _ _ ((hv _ _).1 h1)] at h2
    simpa using h2.symm

theorem getState_of_untracked {m : LayoutMap} {img : Image} {vt : ViewType} {r a : Range}
    {sep : Bool} (ha : Designates img vt r a) (h : Untracked m img.id a) :
    (m.getState img vt (adaptRange sep img.format r)).layout = Layout.undefined := by
  apply getState_none
  intro l v h1
  exact h l v ((ha.has_iff l v).2 ((virtual_adapt img vt _ _ _ l v).1 h1))

/-- C12 (partial: the view must be uniformly tracked, or untracked with an initial layout other than the wanted
one; `barrier_mixed_range_left_behind` and `barrier_untracked_not_remembered` show both restrictions are
needed). After the request, the tracked layout of every subresource of the view is the wanted one. -/
theorem barrier_tracks_wanted_partial (env : Env) (r : Rec) (q : Request) (a : Range)
    (ha : Designates q.img q.vt q.sub a) (hne : a.NonEmpty) (hw : q.wanted.layout ≠ Layout.undefined)
    (h : (∃ s, UniformState r.ctx.images q.img.id a s ∧ s.layout ≠ Layout.undefined)
      ∨ (Untracked r.ctx.images q.img.id a ∧ q.initial ≠ q.wanted.layout)) :
    (∀ l v, a.Has l v → ∃ t, (request env r q).ctx.images.at q.img.id l v = some t
      ∧ t.layout = q.wanted.layout ∧ t.state.stage = q.wanted.state.stage)
    ∧ ((request env r q).ctx.images.getState q.img q.vt q.sub).layout = q.wanted.layout := by
  have main : ∃ t, UniformState (request env r q).ctx.images q.img.id a t ∧ t.layout = q.wanted.layout
      ∧ t.state.stage = q.wanted.state.stage := by
    by_cases hc : (request env r q).cmds = r.cmds
    · obtain ⟨src, hs, ⟨-, e⟩ | ⟨hn, e⟩⟩ :=
        imageBarrier_cases env r q.img q.vt q.sub q.initial q.wanted q.force
      · unfold request at hc; rw [e] at hc; simp at hc
      · rcases h with ⟨s, hu, hsu⟩ | ⟨hu, hi⟩
        · rw [getState_of_uniform ha hne hu, if_neg hsu] at hs
          subst hs
          refine ⟨src, ?_, ?_, ?_⟩
          · unfold request; rw [e]; exact hu
          · exact Decidable.byContradiction fun hx => hn (Or.inr ⟨Or.inl hx, hw⟩)
          · exact Decidable.byContradiction fun hx => hn (Or.inr ⟨Or.inr hx, hw⟩)
        · rw [if_pos (getState_of_untracked ha hu)] at hs
          subst hs
          exact absurd (Or.inr ⟨Or.inl hi, hw⟩) hn
    · exact ⟨q.wanted, fun l v hl => barrier_recorded_tracked env r q a ha hc l v hl, rfl, rfl⟩
  obtain ⟨t, hu, h1, h2⟩ := main
  refine ⟨fun l v hl => ⟨t, hu l v hl, h1, h2⟩, ?_⟩
  obtain ⟨l0, v0, h0⟩ := a.nonEmpty_iff.1 hne
  rw [LayoutMap.getState_uniform (s := t)]
  · exact h1
  · exact ⟨l0, v0, (ha.has_iff _ _).1 h0, by rw [hu _ _ h0]; rfl⟩
  · intro l v t' h1 h2
    rw [hu _ _ ((ha.has_iff _ _).2 h1)] at h2
    simpa using h2.symm

example : ∃ s, UniformState (request exEnv start exQ1).ctx.images bImg.id exQ1.sub s
    ∧ s.layout ≠ Layout.undefined := by
  refine ⟨_, fun l v h => barrier_recorded_tracked exEnv start exQ1 exQ1.sub
    ⟨⟨rfl, rfl⟩, by simp [exQ1], fun _ => ⟨rfl, rfl⟩⟩ ?_ l v h, by decide⟩
  decide

/-- C12 is false in general: subresource A tracked SHADER_READ_ONLY, B tracked TRANSFER_DST, then a request of
SHADER_READ_ONLY for both records nothing and B stays in TRANSFER_DST. -/
theorem barrier_mixed_range_left_behind :
    ∃ qs q, (∀ p ∈ qs ++ [q], Ordinary exEnv exFmt p) ∧ q.sub.Has 1 0 ∧
      (request exEnv (requests exEnv start qs) q).cmds = (requests exEnv start qs).cmds
      ∧ ((request exEnv (requests exEnv start qs) q).ctx.images.at q.img.id 1 0).map (·.layout)
          = some Layout.transferDst
      ∧ q.wanted.layout = Layout.shaderReadOnly := by
  refine ⟨[⟨bImg, .d2, ⟨1, 0, 1, 0, 1⟩, 0, makeLayoutState Layout.shaderReadOnly, false⟩,
    ⟨bImg, .d2, ⟨1, 0, 1, 1, 1⟩, 0, makeLayoutState Layout.transferDst, false⟩],
    ⟨bImg, .d2Array, ⟨1, 0, 1, 0, 2⟩, 0, makeLayoutState Layout.shaderReadOnly, false⟩, ?_, by decide, by decide,
    by decide, by decide⟩
  intro p hp
  simp only [List.cons_append, List.nil_append, List.mem_cons, List.not_mem_nil, or_false] at hp
  rcases hp with rfl | rfl | rfl <;> exact ⟨by decide, by decide, by decide, by decide⟩

/-- C12 is false in general: an untracked view requested in the layout given as initial stays untracked. -/
theorem barrier_untracked_not_remembered :
    ∃ q, Ordinary exEnv exFmt q ∧ q.sub.NonEmpty ∧ q.wanted.layout ≠ Layout.undefined
      ∧ ((request exEnv start q).ctx.images.getState q.img q.vt q.sub).layout = Layout.undefined :=
  ⟨⟨bImg, .d2, ⟨1, 0, 1, 0, 1⟩, 5, makeLayoutState Layout.shaderReadOnly, false⟩,
    ⟨by decide, by decide, by decide, by decide⟩, by decide, by decide, by decide⟩

/-! ### C13 -/

/-- The range a recorded barrier names: the requested one, with both aspects of a combined depth/stencil format
when the device has no separate depth/stencil layouts. -/
def BarrierRange (env : Env) (q : Request) (b : Range) : Prop :=
  b.baseMip = q.sub.baseMip ∧ b.levels = q.sub.levels ∧ b.baseLayer = q.sub.baseLayer ∧ b.layers = q.sub.layers
  ∧ (WholeAspect env.sepDS q.img.format q.sub.aspect → b.aspect = aspects q.img.format)
  ∧ (env.sepDS = true → b.aspect = q.sub.aspect)

theorem adaptRange_barrierRange (env : Env) (q : Request) :
    BarrierRange env q (adaptRange env.sepDS q.img.format q.sub) := by
  have h := adaptRange_dims env.sepDS q.img.format q.sub
  refine ⟨h.1, h.2.1, h.2.2.1, h.2.2.2, adaptRange_whole, ?_⟩
  intro hs
  simp [adaptRange, hs]

/-- C13, for a view whose subresources are all tracked in state `s`: a barrier is recorded exactly when the
request is forced or wants another layout or stage; it is the only command recorded and goes from `s` to the
wanted state. Otherwise nothing changes at all. -/
theorem barrier_recorded_iff_tracked (env : Env) (r : Rec) (q : Request) (a : Range)
    (ha : Designates q.img q.vt q.sub a) (hne : a.NonEmpty) (s : LayoutState)
    (hs : UniformState r.ctx.images q.img.id a s) (hsu : s.layout ≠ Layout.undefined) :
    ((q.force = true ∨ ((s.layout ≠ q.wanted.layout ∨ s.state.stage ≠ q.wanted.state.stage)
        ∧ q.wanted.layout ≠ Layout.undefined)) →
      ∃ b, BarrierRange env q b ∧ (request env r q).cmds
        = r.cmds ++ [.imageBarrier q.img.id b s.state q.wanted.state s.layout q.wanted.layout])
    ∧ (¬ (q.force = true ∨ ((s.layout ≠ q.wanted.layout ∨ s.state.stage ≠ q.wanted.state.stage)
        ∧ q.wanted.layout ≠ Layout.undefined)) → request env r q = r) := by
  obtain ⟨src, e0, h⟩ := imageBarrier_cases env r q.img q.vt q.sub q.initial q.wanted q.force
  rw [getState_of_uniform ha hne hs, if_neg hsu] at e0
  subst e0
  rcases h with ⟨hc, e⟩ | ⟨hc, e⟩
  · exact ⟨fun _ => ⟨_, adaptRange_barrierRange env q, by unfold request; rw [e]⟩, fun hn => absurd hc hn⟩
  · exact ⟨fun hy => absurd hy hc, fun _ => by unfold request; rw [e]⟩

/-- C13, for an untracked view: the same with the given initial layout as source. -/
theorem barrier_recorded_iff_untracked (env : Env) (r : Rec) (q : Request) (a : Range)
    (ha : Designates q.img q.vt q.sub a) (hs : Untracked r.ctx.images q.img.id a) :
    ((q.force = true ∨ ((q.initial ≠ q.wanted.layout ∨ getStageMask q.initial ≠ q.wanted.state.stage)
        ∧ q.wanted.layout ≠ Layout.undefined)) →
      ∃ b, BarrierRange env q b ∧ (request env r q).cmds
        = r.cmds ++ [.imageBarrier q.img.id b ⟨getAccessMask q.initial, getStageMask q.initial⟩ q.wanted.state
          q.initial q.wanted.layout])
    ∧ (¬ (q.force = true ∨ ((q.initial ≠ q.wanted.layout ∨ getStageMask q.initial ≠ q.wanted.state.stage)
        ∧ q.wanted.layout ≠ Layout.undefined)) → request env r q = r) := by
  obtain ⟨src, e0, h⟩ := imageBarrier_cases env r q.img q.vt q.sub q.initial q.wanted q.force
  rw [if_pos (getState_of_untracked ha hs)] at e0
  subst e0
  rcases h with ⟨hc, e⟩ | ⟨hc, e⟩
  · exact ⟨fun _ => ⟨_, adaptRange_barrierRange env q, by unfold request; rw [e]; rfl⟩, fun hn => absurd hc hn⟩
  · exact ⟨fun hy => absurd hy hc, fun _ => by unfold request; rw [e]⟩

/-- C13, any tracked state: at most one command, an image barrier of the requested range towards the wanted
state. Its old layout is the initial one or the tracked layout of one of the view's subresources. -/
theorem barrier_shape (env : Env) (r : Rec) (q : Request) (a : Range) (ha : Designates q.img q.vt q.sub a) :
    request env r q = r ∨ ∃ b src old, BarrierRange env q b ∧
      (request env r q).cmds = r.cmds ++ [.imageBarrier q.img.id b src q.wanted.state old q.wanted.layout]
      ∧ (old = q.initial ∨ ∃ l v t, a.Has l v ∧ r.ctx.images.at q.img.id l v = some t ∧ t.layout = old) := by
  obtain ⟨src, e0, ⟨hc, e⟩ | ⟨hc, e⟩⟩ := imageBarrier_cases env r q.img q.vt q.sub q.initial q.wanted q.force
  · right
    refine ⟨_, src.state, src.layout, adaptRange_barrierRange env q, by unfold request; rw [e], ?_⟩
    by_cases hu : (r.ctx.images.getState q.img q.vt (adaptRange env.sepDS q.img.format q.sub)).layout
        = Layout.undefined
    · rw [if_pos hu] at e0
      left; rw [e0]; rfl
    · rw [if_neg hu] at e0
      right
      -- some subresource is tracked, else the answer is UNDEFINED
      have hex : ∃ l v, (getVirtualRange q.img q.vt (adaptRange env.sepDS q.img.format q.sub)).Has l v
          ∧ (r.ctx.images.at q.img.id l v).isSome := by
        apply Classical.byContradiction
        intro hn
        apply hu
        apply getState_none
        intro l v hl
        cases hx : r.ctx.images.at q.img.id l v with
        | none => rfl
        | some t => exact absurd ⟨l, v, hl, by rw [hx]; rfl⟩ hn
      have := getState_mem hex
      obtain ⟨l, v, t, h1, h2, h3⟩ := this
      exact ⟨l, v, t, (ha.has_iff l v).2 ((virtual_adapt _ _ _ _ _ l v).1 h1), h2, by rw [e0]; exact h3⟩
  · left; unfold request; rw [e]

/-! ### C14 -/

/-- The tracker's view of an image agrees with the GPU: a tracked subresource is in its tracked layout, an
untracked one still in the layout it had at the start. -/
def Mirrors (fmt : Nat → Nat) (g0 : Layouts) (m : LayoutMap) (g : Layouts) : Prop :=
  ∀ i a l v, HasAspect (fmt i) a →
    match m.at i l v with
    | some s => g i a l v = s.layout
    | none => g i a l v = g0 i a l v

theorem mirrors_step (env : Env) (fmt : Nat → Nat) (g0 : Layouts) (r : Rec) (q : Request)
    (hq : Ordinary env fmt q) (h : Mirrors fmt g0 r.ctx.images (execAll g0 r.cmds)) :
    Mirrors fmt g0 (request env r q).ctx.images (execAll g0 (request env r q).cmds) := by
  obtain ⟨src, -, ⟨hc, e⟩ | ⟨hc, e⟩⟩ := imageBarrier_cases env r q.img q.vt q.sub q.initial q.wanted q.force
    <;> unfold request <;> rw [e]
  · intro i a l v hasp
    have := h i a l v hasp
    simp only [Ctx.setLayout, LayoutMap.at_setState, execAll_snoc, exec]
    rw [virtual_plain _ _ hq.view]
    by_cases hi : i = q.img.id ∧ (adaptRange env.sepDS q.img.format q.sub).Has l v
    · rw [if_pos hi, if_pos]
      refine ⟨hi.1, ?_, hi.2⟩
      rw [adaptRange_whole hq.aspect, hq.format, ← hi.1]
      exact hasp
    · rw [if_neg hi, if_neg]
      · exact this
      · rintro ⟨h1, h2⟩
        exact hi ⟨h1, h2.2⟩
  · exact h

/-- C14, tracker: after any history of ordinary requests, over any images and ranges (overlapping or not), the
tracked layout of every subresource is the one the GPU really has. -/
theorem tracker_mirrors_gpu (env : Env) (fmt : Nat → Nat) (g0 : Layouts) (qs : List Request)
    (hq : ∀ q ∈ qs, Ordinary env fmt q) :
    Mirrors fmt g0 (requests env start qs).ctx.images (execAll g0 (requests env start qs).cmds) := by
  induction qs using snocInduction with
  | nil =>
    intro i a l v _
    simp [requests, start, Ctx.new, LayoutMap.empty, LayoutMap.at, execAll]
  | snoc qs q ih =>
    have := mirrors_step env fmt g0 (requests env start qs) q (hq q (by simp))
      (ih (fun p hp => hq p (by simp [hp])))
    simpa [requests] using this

example : ∀ q ∈ [exQ1, exQ2, exQ3], Ordinary exEnv exFmt q := by
  intro q hq
  simp at hq
  rcases hq with rfl | rfl | rfl <;> exact ⟨by decide, by decide, by decide, by decide⟩

/-- Requests for one image use ranges that are equal or disjoint. -/
def EqualOrDisjoint (qs : List Request) : Prop :=
  ∀ p ∈ qs, ∀ q ∈ qs, p.img.id = q.img.id → (∀ l v, p.sub.Has l v ↔ q.sub.Has l v) ∨ p.sub.Disjoint q.sub

/-- The initial layout given with a request is UNDEFINED or what the range was in when recording started. -/
def HonestInitial (g0 : Layouts) (q : Request) : Prop :=
  q.initial = Layout.undefined ∨ ∀ a l v, q.sub.Has l v → g0 q.img.id a l v = q.initial

/-- All the subresources of the range have the same tracked state, with a real layout. -/
def Uniform (m : LayoutMap) (q : Request) : Prop :=
  Untracked m q.img.id q.sub ∨ ∃ s, UniformState m q.img.id q.sub s ∧ s.layout ≠ Layout.undefined

theorem uniform_step (env : Env) (fmt : Nat → Nat) (r : Rec) (p q : Request)
    (hq : Ordinary env fmt q)
    (hd : p.img.id = q.img.id → (∀ l v, p.sub.Has l v ↔ q.sub.Has l v) ∨ p.sub.Disjoint q.sub)
    (h : Uniform r.ctx.images p) : Uniform (request env r q).ctx.images p := by
  obtain ⟨src, -, ⟨hc, e⟩ | ⟨hc, e⟩⟩ := imageBarrier_cases env r q.img q.vt q.sub q.initial q.wanted q.force
    <;> unfold request <;> rw [e]
  · simp only [Ctx.setLayout]
    unfold Uniform Untracked UniformState
    simp only [LayoutMap.at_setState, virtual_plain _ _ hq.view, adaptRange_has]
    by_cases hi : p.img.id = q.img.id
    · rcases hd hi with he | hdis
      · right
        refine ⟨q.wanted, fun l v hl => by rw [if_pos ⟨hi, (he l v).1 hl⟩], hq.wanted⟩
      · have : ∀ l v, p.sub.Has l v → ¬ (p.img.id = q.img.id ∧ q.sub.Has l v) := by
          rintro l v h1 ⟨_, h2⟩; exact hdis l v ⟨h1, h2⟩
        rcases h with h | ⟨s, h, hs⟩
        · exact Or.inl fun l v hl => by rw [if_neg (this l v hl)]; exact h l v hl
        · exact Or.inr ⟨s, fun l v hl => by rw [if_neg (this l v hl)]; exact h l v hl, hs⟩
    · rcases h with h | ⟨s, h, hs⟩
      · exact Or.inl fun l v hl => by rw [if_neg (fun hx => hi hx.1)]; exact h l v hl
      · exact Or.inr ⟨s, fun l v hl => by rw [if_neg (fun hx => hi hx.1)]; exact h l v hl, hs⟩
  · exact h

theorem designates_plain {q : Request} (h : q.vt ≠ .d3) : Designates q.img q.vt q.sub q.sub :=
  ⟨⟨rfl, rfl⟩, fun he => absurd he h, fun _ => ⟨rfl, rfl⟩⟩

theorem valid_step (env : Env) (fmt : Nat → Nat) (g0 : Layouts) (r : Rec) (q : Request)
    (hq : Ordinary env fmt q) (hi : HonestInitial g0 q)
    (hm : Mirrors fmt g0 r.ctx.images (execAll g0 r.cmds)) (hu : Uniform r.ctx.images q)
    (hv : StreamValid g0 r.cmds) : StreamValid g0 (request env r q).cmds := by
  obtain ⟨src, e0, ⟨hc, e⟩ | ⟨hc, e⟩⟩ := imageBarrier_cases env r q.img q.vt q.sub q.initial q.wanted q.force
    <;> unfold request <;> rw [e]
  · rw [streamValid_snoc]
    refine ⟨hv, ?_⟩
    unfold Valid
    by_cases hne : q.sub.NonEmpty
    · rcases hu with hu | ⟨s, hu, hs⟩
      · rw [if_pos (getState_of_untracked (designates_plain hq.view) hu)] at e0
        subst e0
        rcases hi with hi | hi
        · left; simp [makeLayoutState, hi]
        · right
          rintro a l v ⟨ha, hl⟩
          rw [adaptRange_has] at hl
          rw [adaptRange_whole hq.aspect, hq.format] at ha
          have := hm q.img.id a l v ha
          rw [hu l v hl] at this
          simp only at this
          rw [this, hi a l v hl]
          rfl
      · rw [getState_of_uniform (designates_plain hq.view) hne hu, if_neg hs] at e0
        subst e0
        right
        rintro a l v ⟨ha, hl⟩
        rw [adaptRange_has] at hl
        rw [adaptRange_whole hq.aspect, hq.format] at ha
        have := hm q.img.id a l v ha
        rw [hu l v hl] at this
        exact this
    · right
      rintro a l v ⟨_, hl⟩
      rw [adaptRange_has] at hl
      exact absurd ((Range.nonEmpty_iff _).2 ⟨l, v, hl⟩) hne
  · exact hv

/-- C14 (partial: ordinary requests whose ranges on one image are equal or disjoint; see
`mixed_range_barrier_invalid`, `separate_aspects_barrier_invalid`). Every recorded barrier, at every point of
the history, states as old layout UNDEFINED or the layout the GPU really has for all its subresources. -/
theorem barriers_valid_partial (env : Env) (fmt : Nat → Nat) (g0 : Layouts) (qs : List Request)
    (hq : ∀ q ∈ qs, Ordinary env fmt q) (hd : EqualOrDisjoint qs) (hi : ∀ q ∈ qs, HonestInitial g0 q) :
    StreamValid g0 (requests env start qs).cmds := by
  have key : ∀ done todo, qs = done ++ todo →
      StreamValid g0 (requests env start done).cmds
      ∧ ∀ p ∈ qs, Uniform (requests env start done).ctx.images p := by
    intro done
    induction done using snocInduction with
    | nil =>
      intro _ _
      refine ⟨trivial, fun p _ => Or.inl fun l v _ => rfl⟩
    | snoc done q ih =>
      intro todo hqs
      have hmem : q ∈ qs := by rw [hqs]; simp
      have hdone : ∀ p ∈ done, Ordinary env fmt p := fun p hp => hq p (by rw [hqs]; simp [hp])
      obtain ⟨h1, h2⟩ := ih (q :: todo) (by simpa using hqs)
      have e : requests env start (done ++ [q]) = request env (requests env start done) q := by simp [requests]
      rw [e]
      exact ⟨valid_step env fmt g0 _ q (hq q hmem) (hi q hmem)
          (tracker_mirrors_gpu env fmt g0 done hdone) (h2 q hmem) h1,
        fun p hp => uniform_step env fmt _ p q (hq q hmem) (hd p hp q hmem) (h2 p hp)⟩
  exact (key qs [] (by simp)).1

/-- C12/C14: under the same conditions, right after each request the GPU has every subresource of the view in the
wanted layout, whether or not a barrier was recorded. -/
theorem gpu_in_wanted_layout_partial (env : Env) (fmt : Nat → Nat) (g0 : Layouts) (qs : List Request)
    (q : Request) (hq : ∀ p ∈ qs ++ [q], Ordinary env fmt p) (hd : EqualOrDisjoint (qs ++ [q]))
    (hi : ∀ p ∈ qs ++ [q], HonestInitial g0 p) (a l v : Nat) (ha : HasAspect q.img.format a)
    (hl : q.sub.Has l v) :
    execAll g0 (requests env start (qs ++ [q])).cmds q.img.id a l v = q.wanted.layout := by
  have hqq := hq q (by simp)
  have hm := tracker_mirrors_gpu env fmt g0 qs (fun p hp => hq p (by simp [hp]))
  have hm' := tracker_mirrors_gpu env fmt g0 (qs ++ [q]) hq
  have hu : ∀ done, (∀ p ∈ done, p ∈ qs ++ [q]) → Uniform (requests env start done).ctx.images q := by
    intro done
    induction done using snocInduction with
    | nil => intro _; exact Or.inl fun l v _ => rfl
    | snoc done p ih =>
      intro hs
      have e : requests env start (done ++ [p]) = request env (requests env start done) p := by simp [requests]
      rw [e]
      have hp := hs p (by simp)
      exact uniform_step env fmt _ q p (hq p hp) (hd q (by simp) p hp) (ih fun x hx => hs x (by simp [hx]))
  have hu := hu qs (fun p hp => by simp [hp])
  have e : requests env start (qs ++ [q]) = request env (requests env start qs) q := by simp [requests]
  rw [hqq.format] at ha
  have hm'' := hm' q.img.id a l v ha
  have hm0 := hm q.img.id a l v ha
  have hne : q.sub.NonEmpty := (Range.nonEmpty_iff _).2 ⟨l, v, hl⟩
  by_cases hc : (request env (requests env start qs) q).cmds = (requests env start qs).cmds
  · rw [e, hc]
    obtain ⟨src, e0, ⟨_, e1⟩ | ⟨hn, e1⟩⟩ :=
      imageBarrier_cases env (requests env start qs) q.img q.vt q.sub q.initial q.wanted q.force
    · unfold request at hc; rw [e1] at hc; simp at hc
    · have hlay : src.layout = q.wanted.layout :=
        Decidable.byContradiction fun hx => hn (Or.inr ⟨Or.inl hx, hqq.wanted⟩)
      rcases hu with hu | ⟨s, hu, hs⟩
      · rw [if_pos (getState_of_untracked (designates_plain hqq.view) hu)] at e0
        subst e0
        rw [hu l v hl] at hm0
        simp only at hm0
        have hw : q.initial = q.wanted.layout := hlay
        rcases hi q (by simp) with hi | hi
        · exact absurd (hw.symm.trans hi) hqq.wanted
        · rw [hm0, hi a l v hl, hw]
      · rw [getState_of_uniform (designates_plain hqq.view) hne hu, if_neg hs] at e0
        subst e0
        rw [hu l v hl] at hm0
        exact hm0.trans hlay
  · have := barrier_recorded_tracked env (requests env start qs) q q.sub (designates_plain hqq.view) hc l v hl
    rw [e] at hm'' ⊢
    rw [this] at hm''
    exact hm''

example : EqualOrDisjoint [exQ1, exQ2, exQ3] ∧ (∀ q ∈ [exQ1, exQ2, exQ3], HonestInitial (fun _ _ _ _ => 0) q)
    ∧ (requests exEnv start [exQ1, exQ2, exQ3]).cmds.length = 3 := by
  refine ⟨?_, ?_, by decide⟩
  · intro p hp q hq _
    simp at hp hq
    rcases hp with rfl | rfl | rfl <;> rcases hq with rfl | rfl | rfl
    all_goals first
      | (left; intro l v; exact Iff.rfl)
      | (right; rintro l v ⟨h1, h2⟩; simp [Range.Has, exQ1, exQ2, exQ3] at h1 h2; omega)
  · intro q hq
    simp at hq
    rcases hq with rfl | rfl | rfl <;> exact Or.inl rfl

/-- C14 is false in general: a barrier over a range whose subresources are in different layouts states the
smallest one as the old layout of all. Here layer 0 is TRANSFER_SRC, layer 1 TRANSFER_DST. -/
theorem mixed_range_barrier_invalid :
    ∃ qs, (∀ q ∈ qs, Ordinary exEnv exFmt q) ∧ (∀ q ∈ qs, HonestInitial (fun _ _ _ _ => 0) q)
      ∧ ¬ StreamValid (fun _ _ _ _ => 0) (requests exEnv start qs).cmds := by
  refine ⟨[⟨bImg, .d2, ⟨1, 0, 1, 0, 1⟩, 0, makeLayoutState Layout.transferSrc, false⟩,
    ⟨bImg, .d2, ⟨1, 0, 1, 1, 1⟩, 0, makeLayoutState Layout.transferDst, false⟩,
    ⟨bImg, .d2Array, ⟨1, 0, 1, 0, 2⟩, 0, makeLayoutState Layout.shaderReadOnly, false⟩], ?_, ?_, ?_⟩
  · intro p hp
    simp only [List.mem_cons, List.not_mem_nil, or_false] at hp
    rcases hp with rfl | rfl | rfl <;> exact ⟨by decide, by decide, by decide, by decide⟩
  · intro p hp
    simp only [List.mem_cons, List.not_mem_nil, or_false] at hp
    rcases hp with rfl | rfl | rfl <;> exact Or.inl rfl
  · intro h
    have h3 := h.2.2.1
    rcases h3 with h3 | h3
    · exact absurd h3 (by decide)
    · exact absurd (h3 0 1 0 (by decide)) (by decide)

def dsImg : Image := ⟨1, Format.d24s8, 1, 1, 64, 64, 1⟩

/-- C14 is false in general: with separate depth/stencil layouts, the tracker doesn't distinguish aspects: a
barrier of the depth aspect followed by one of the stencil aspect states the depth's layout for the stencil. -/
theorem separate_aspects_barrier_invalid :
    ∃ qs, (∀ q ∈ qs, q.vt = .d2 ∧ q.initial = Layout.undefined ∧ q.wanted.layout ≠ Layout.undefined)
      ∧ EqualOrDisjoint qs
      ∧ ¬ StreamValid (fun _ _ _ _ => 0) (requests ⟨true, fun _ => true⟩ start qs).cmds := by
  refine ⟨[⟨dsImg, .d2, ⟨Aspect.depth, 0, 1, 0, 1⟩, 0, makeLayoutState Layout.depthAttachment, false⟩,
    ⟨dsImg, .d2, ⟨Aspect.stencil, 0, 1, 0, 1⟩, 0, makeLayoutState Layout.stencilReadOnly, false⟩], ?_, ?_, ?_⟩
  · intro p hp
    simp only [List.mem_cons, List.not_mem_nil, or_false] at hp
    rcases hp with rfl | rfl <;> decide
  · intro p hp q hq _
    simp only [List.mem_cons, List.not_mem_nil, or_false] at hp hq
    rcases hp with rfl | rfl <;> rcases hq with rfl | rfl <;> (left; intro l v; exact Iff.rfl)
  · intro h
    rcases h.2.1 with h3 | h3
    · exact absurd h3 (by decide)
    · exact absurd (h3 2 0 0 (by decide)) (by decide)

end Verif.Gpu
