import Verif.Props.Observe
/-
C17 for whole graphs: the substitute registered for a disabled pass runs exactly when a later pass uses the view.
-/
namespace Verif.Run
open Verif.Rec Verif.Att Verif.Gpu

/-! ### Specification -/

/-- The sources whose pending transitions an action runs first. -/
def sources : Action → List View
  | .copy s _ _ _ _ | .blit s _ _ _ _ _ _ _ _ _ _ _ => [s]
  | .nothing | .user _ | .clear _ _ _ => []

/-- Pass `q`, with this index, attaches view `v`. -/
def Attaches (q : RunPass) (index : Nat) (v : View) : Prop :=
  ∃ a ∈ q.images, ∃ w, a.img.view index = some w ∧ w.id = v.id

/-- User function `k` is the substitute of the `i`-th pass, `p`, for view `v`: that pass registers it once, and no
registration other than this one is for `v`, calls `k`, or copies or blits from `v`. -/
structure SubstituteOf (passes : List RunPass) (i : Nat) (p : RunPass) (v : View) (k : Nat) : Prop where
  here : passes[i]? = some p
  own : ∃ pre post, p.implicitActions = pre ++ (v, .user k) :: post
    ∧ ∀ va ∈ pre ++ post, va.1.id ≠ v.id ∧ va.2 ≠ .user k ∧ ∀ s ∈ sources va.2, s.id ≠ v.id
  others : ∀ j q, j ≠ i → passes[j]? = some q → ∀ va ∈ q.implicitActions,
    va.1.id ≠ v.id ∧ va.2 ≠ .user k ∧ ∀ s ∈ sources va.2, s.id ≠ v.id

/-- Bodies neither register nor run implicit transitions, nor call `k` themselves. -/
def BodyQuiet (k : Nat) (p : RunPass) : Prop :=
  ∀ index r, (p.body index r).ctx.implicit = r.ctx.implicit ∧ ranTimes k (p.body index r).cmds = ranTimes k r.cmds

/-! ### One use -/

/-- Pending transitions for other views never run `k`. -/
def Others (v : View) (k : Nat) (ts : List Implicit) : Prop :=
  ∀ t ∈ ts, t.view.id ≠ v.id → t.action ≠ .user k ∧ ∀ s ∈ sources t.action, s.id ≠ v.id

/-- The pending transitions for the view. -/
def pendingFor (v : View) (ts : List Implicit) : List Implicit := ts.filter (Implicit.isFor v)

theorem pendingFor_erase {v w : View} (h : w.id ≠ v.id) (ts : List Implicit) :
    pendingFor v (ts.eraseP (Implicit.isFor w)) = pendingFor v ts := by
  unfold pendingFor
  induction ts with
  | nil => rfl
  | cons t ts ih =>
    by_cases ht : Implicit.isFor w t = true
    · rw [List.eraseP_cons_of_pos ht, List.filter_cons_of_neg]
      unfold Implicit.isFor at ht ⊢
      simp only [beq_iff_eq] at ht ⊢
      rw [ht]; exact h
    · rw [List.eraseP_cons_of_neg ht, List.filter_cons, List.filter_cons, ih]

theorem others_sub {v : View} {k : Nat} {ts us : List Implicit} (h : Others v k ts) (hs : us.Sublist ts) :
    Others v k us := fun t ht => h t (hs.mem ht)

/-- What stays the same: `k`'s runs, the view's pending transitions. -/
def SameFor (v : View) (k : Nat) (r r' : Rec) : Prop :=
  pendingFor v r'.ctx.implicit = pendingFor v r.ctx.implicit ∧ ranTimes k r'.cmds = ranTimes k r.cmds
  ∧ (Others v k r.ctx.implicit → Others v k r'.ctx.implicit)

theorem sameFor_refl (v : View) (k : Nat) (r : Rec) : SameFor v k r r := ⟨rfl, rfl, id⟩
theorem sameFor_trans {v : View} {k : Nat} {a b c : Rec} (h : SameFor v k a b) (h' : SameFor v k b c) :
    SameFor v k a c := ⟨h'.1.trans h.1, h'.2.1.trans h.2.1, h'.2.2 ∘ h.2.2⟩
theorem sameFor_eq {v : View} {k : Nat} {a b : Rec} (h : b.ctx.implicit = a.ctx.implicit)
    (h' : ranTimes k b.cmds = ranTimes k a.cmds) : SameFor v k a b :=
  ⟨by rw [h], h', by rw [h]; exact id⟩

theorem sameFor_barrier (v : View) (k : Nat) (env : Env) (r : Rec) (w : View) (i : Nat) (s : LayoutState) (f : Bool) :
    SameFor v k r (r.viewBarrier env w i s f) :=
  sameFor_eq (viewBarrier_keeps _ _ _ _ _ _ k).1 (viewBarrier_keeps _ _ _ _ _ _ k).2
theorem sameFor_final (v : View) (k : Nat) (env : Env) (r : Rec) (w : View) (l : Nat) :
    SameFor v k r (r.finalBarrier env w l) :=
  sameFor_eq (finalBarrier_keeps _ _ _ _ k).1 (finalBarrier_keeps _ _ _ _ k).2
theorem sameFor_emit (v : View) (k : Nat) (r : Rec) (c : Cmd) (hc : c ≠ .user k) : SameFor v k r (r.emit c) :=
  sameFor_eq (emit_keeps _ _ k hc).1 (emit_keeps _ _ k hc).2

theorem sameFor_erase {v w : View} (k : Nat) (h : w.id ≠ v.id) (r : Rec) :
    SameFor v k r { r with ctx := { r.ctx with implicit := r.ctx.implicit.eraseP (Implicit.isFor w) } } :=
  ⟨pendingFor_erase h _, rfl, fun ho => others_sub ho List.eraseP_sublist⟩

theorem sameFor_doCopy (v : View) (k : Nat) (env : Env) (r : Rec) (s d : View) (w h f : Nat) :
    SameFor v k r (r.doCopy env s d w h f) := by
  unfold Rec.doCopy
  simp only
  exact sameFor_trans (sameFor_trans (sameFor_trans (sameFor_barrier _ _ _ _ _ _ _ _) (sameFor_barrier _ _ _ _ _ _ _ _))
    (sameFor_emit _ _ _ _ (by simp))) (sameFor_final _ _ _ _ _ _)
theorem sameFor_doBlit (v : View) (k : Nat) (env : Env) (r : Rec) (s d : View) (sx sy : Int) (sw sh : Nat)
    (dx dy : Int) (dw dh fi f : Nat) : SameFor v k r (r.doBlit env s d sx sy sw sh dx dy dw dh fi f) := by
  unfold Rec.doBlit
  simp only
  exact sameFor_trans (sameFor_trans (sameFor_trans (sameFor_barrier _ _ _ _ _ _ _ _) (sameFor_barrier _ _ _ _ _ _ _ _))
    (sameFor_emit _ _ _ _ (by simp))) (sameFor_final _ _ _ _ _ _)
theorem sameFor_doClear (v : View) (k : Nat) (env : Env) (r : Rec) (d : View) (x f : Nat) :
    SameFor v k r (r.doClear env d x f) := by
  unfold Rec.doClear
  simp only
  exact sameFor_trans (sameFor_trans (sameFor_barrier _ _ _ _ _ _ _ _) (sameFor_emit _ _ _ _ (by simp)))
    (sameFor_final _ _ _ _ _ _)

/-- A use of another view doesn't matter. -/
theorem use_other (env : Env) (v : View) (k : Nat) : ∀ (n : Nat) (r : Rec) (w : View), r.ctx.implicit.length = n →
    w.id ≠ v.id → Others v k r.ctx.implicit → SameFor v k r (r.runImplicit env w) := by
  intro n
  induction n using Nat.strongRecOn with
  | ind n ih =>
    intro r w hn hw ho
    cases hf : r.ctx.implicit.find? (Implicit.isFor w) with
    | none => rw [runImplicit_none _ _ _ hf]; exact sameFor_refl _ _ _
    | some t =>
      rw [runImplicit_some _ _ _ _ hf]
      have hlt := eraseP_lt hf
      have htw : t.view.id ≠ v.id := by
        have h := List.find?_some hf
        unfold Implicit.isFor at h
        rw [beq_iff_eq] at h
        rw [h]; exact hw
      have hact := ho t (List.mem_of_find?_eq_some hf) htw
      have he := sameFor_erase k hw r
      simp only
      split
      · exact he
      · split
        · exact he
        · rename_i j hj
          exact sameFor_trans he (sameFor_emit _ _ _ _ (by
            intro e; simp only [Cmd.user.injEq] at e; subst e; exact hact.1 hj))
        · rename_i src dst w' h' final hj
          rw [hj] at hact
          exact sameFor_trans he (sameFor_trans (ih _ (by rw [← hn]; exact hlt) _ src rfl
            (hact.2 src (by simp [sources])) (he.2.2 ho)) (sameFor_doCopy _ _ _ _ _ _ _ _ _))
        · rename_i src dst sx sy sw sh dx dy dw dh filter final hj
          rw [hj] at hact
          exact sameFor_trans he (sameFor_trans (ih _ (by rw [← hn]; exact hlt) _ src rfl
            (hact.2 src (by simp [sources])) (he.2.2 ho)) (sameFor_doBlit _ _ _ _ _ _ _ _ _ _ _ _ _ _ _ _))
        · exact sameFor_trans he (sameFor_doClear _ _ _ _ _ _ _)

theorem find_pendingFor (v : View) (ts : List Implicit) : ts.find? (Implicit.isFor v) = (pendingFor v ts).head? := by
  unfold pendingFor
  rw [List.head?_filter]

theorem erase_pendingFor (v : View) (ts : List Implicit) :
    pendingFor v (ts.eraseP (Implicit.isFor v)) = (pendingFor v ts).tail := by
  unfold pendingFor
  induction ts with
  | nil => rfl
  | cons t ts ih =>
    by_cases ht : Implicit.isFor v t = true
    · rw [List.eraseP_cons_of_pos ht, List.filter_cons_of_pos ht]; rfl
    · rw [List.eraseP_cons_of_neg ht, List.filter_cons_of_neg ht, List.filter_cons_of_neg ht, ih]

/-- A use of the view when its substitute is pending: it isn't any more, and ran if its pass is disabled. -/
theorem use_same (env : Env) (v w : View) (k : Nat) (r : Rec) (pass : Nat) (u : View) (hw : w.id = v.id)
    (hp : pendingFor v r.ctx.implicit = [⟨pass, u, .user k⟩]) :
    pendingFor v (r.runImplicit env w).ctx.implicit = []
    ∧ ranTimes k (r.runImplicit env w).cmds = ranTimes k r.cmds + (if env.enabled pass then 0 else 1)
    ∧ (Others v k r.ctx.implicit → Others v k (r.runImplicit env w).ctx.implicit) := by
  have hfor : Implicit.isFor w = Implicit.isFor v := by
    funext t; unfold Implicit.isFor; rw [hw]
  have hf : r.ctx.implicit.find? (Implicit.isFor w) = some ⟨pass, u, .user k⟩ := by
    rw [hfor, find_pendingFor, hp]; rfl
  rw [runImplicit_some _ _ _ _ hf]
  have h1 : pendingFor v (r.ctx.implicit.eraseP (Implicit.isFor w)) = [] := by
    rw [hfor, erase_pendingFor, hp]; rfl
  simp only
  split
  · exact ⟨h1, rfl, fun ho => others_sub ho List.eraseP_sublist⟩
  · refine ⟨h1, ?_, fun ho => others_sub ho List.eraseP_sublist⟩
    simp [ranTimes, Rec.emit, List.countP_append]

/-- A use of the view when nothing is pending for it. -/
theorem use_nothing (env : Env) (v w : View) (k : Nat) (r : Rec) (hw : w.id = v.id)
    (hp : pendingFor v r.ctx.implicit = []) : SameFor v k r (r.runImplicit env w) := by
  have hfor : Implicit.isFor w = Implicit.isFor v := by
    funext t; unfold Implicit.isFor; rw [hw]
  rw [runImplicit_none _ _ _ (by rw [hfor, find_pendingFor, hp]; rfl)]
  exact sameFor_refl _ _ _

/-! ### One pass -/

theorem current_implicit (G : GraphSt) (c : Ctx) (v : View) : (getCurrentLayoutState G c v).2.implicit = c.implicit := by
  unfold getCurrentLayoutState
  simp only
  repeat' split
  all_goals rfl

/-- After the implicit transitions of its view, an image attachment only records barriers and a clear. -/
theorem recordImage_after (env : Env) (G : GraphSt) (v : View) (k index : Nat) (r r' : Rec) (a : Attachment)
    (h : recordImage env G index r a = some r') :
    ∃ w, a.img.view index = some w ∧ SameFor v k (r.runImplicit env w) r' := by
  unfold recordImage at h
  split at h
  · simp at h
  · rename_i w hw
    refine ⟨w, hw, ?_⟩
    simp only at h
    split at h
    · have hcur : ∀ c : LayoutState × Ctx, c.2.implicit = (r.runImplicit env w).ctx.implicit →
          SameFor v k (r.runImplicit env w) { r.runImplicit env w with ctx := c.2 } :=
        fun c hc => sameFor_eq hc rfl
      have hc : (if (!a.isInput) = true then (makeLayoutState Layout.undefined, (r.runImplicit env w).ctx)
          else getCurrentLayoutState G (r.runImplicit env w).ctx w).2.implicit = (r.runImplicit env w).ctx.implicit := by
        split
        · rfl
        · exact current_implicit _ _ _
      split at h
      · simp only [Option.some.injEq] at h
        subst h
        exact sameFor_trans (hcur _ hc) (sameFor_trans (sameFor_trans (sameFor_barrier _ _ _ _ _ _ _ _)
          (sameFor_emit _ _ _ _ (by simp))) (sameFor_barrier _ _ _ _ _ _ _ _))
      · simp only [Option.some.injEq] at h
        subst h
        exact sameFor_trans (hcur _ hc) (sameFor_barrier _ _ _ _ _ _ _ _)
    · simp only [Option.some.injEq] at h
      subst h
      exact sameFor_refl _ _ _

theorem sameFor_bufferBarrier (v : View) (k : Nat) (r : Rec) (b o s : Nat) (i w : AccessState) (f : Bool) :
    SameFor v k r (r.bufferBarrier b o s i w f) := by
  unfold Rec.bufferBarrier
  simp only
  generalize (if (r.ctx.getAccess b).stage = Stage.bottomOfPipe then i else r.ctx.getAccess b) = src
  split
  · exact ⟨rfl, by simp [ranTimes, Rec.emit, List.countP_append], id⟩
  · exact sameFor_refl _ _ _

theorem sameFor_recordBuffer (v : View) (k : Nat) (compute : Bool) (index : Nat) (r r' : Rec) (a : Attachment)
    (h : recordBuffer compute index r a = some r') : SameFor v k r r' := by
  unfold recordBuffer at h
  split at h
  · split at h
    · simp at h
    · simp only at h
      split at h
      · simp only [Option.some.injEq] at h
        subst h
        exact sameFor_trans (sameFor_trans (sameFor_bufferBarrier _ _ _ _ _ _ _ _ _) (sameFor_emit _ _ _ _ (by simp)))
          (sameFor_bufferBarrier _ _ _ _ _ _ _ _ _)
      · simp only [Option.some.injEq] at h
        subst h
        exact sameFor_bufferBarrier _ _ _ _ _ _ _ _ _
  · simp only [Option.some.injEq] at h
    subst h
    exact sameFor_refl _ _ _

theorem sameFor_buffers (v : View) (k : Nat) (compute : Bool) (index : Nat) : ∀ (as : List Attachment) (r r' : Rec),
    foldOpt (recordBuffer compute index) r as = some r' → SameFor v k r r' := by
  intro as
  induction as with
  | nil => intro r r' h; simp only [foldOpt, Option.some.injEq] at h; subst h; exact sameFor_refl _ _ _
  | cons a as ih =>
    intro r r' h
    unfold foldOpt at h
    split at h
    · simp at h
    · rename_i r1 e
      exact sameFor_trans (sameFor_recordBuffer _ _ _ _ _ _ _ e) (ih r1 r' h)

/-- Images of a pass when nothing is pending for the view. -/
theorem images_nothing (env : Env) (G : GraphSt) (v : View) (k index : Nat) : ∀ (as : List Attachment) (r r' : Rec),
    foldOpt (recordImage env G index) r as = some r' → pendingFor v r.ctx.implicit = [] →
    Others v k r.ctx.implicit → SameFor v k r r' := by
  intro as
  induction as with
  | nil => intro r r' h _ _; simp only [foldOpt, Option.some.injEq] at h; subst h; exact sameFor_refl _ _ _
  | cons a as ih =>
    intro r r' h hp ho
    unfold foldOpt at h
    split at h
    · simp at h
    · rename_i r1 e
      obtain ⟨w, -, hs⟩ := recordImage_after env G v k index r r1 a e
      have hu : SameFor v k r (r.runImplicit env w) := by
        by_cases hw : w.id = v.id
        · exact use_nothing env v w k r hw hp
        · exact use_other env v k _ r w rfl hw ho
      have h1 := sameFor_trans hu hs
      exact sameFor_trans h1 (ih r1 r' h (by rw [h1.1]; exact hp) (h1.2.2 ho))

/-- Images of a pass when the substitute is pending. -/
theorem images_pending (env : Env) (G : GraphSt) (v : View) (k index pass : Nat) (u : View) :
    ∀ (as : List Attachment) (r r' : Rec),
    foldOpt (recordImage env G index) r as = some r' → pendingFor v r.ctx.implicit = [⟨pass, u, .user k⟩] →
    Others v k r.ctx.implicit →
    ((∀ a ∈ as, ∀ w, a.img.view index = some w → w.id ≠ v.id) → SameFor v k r r')
    ∧ ((∃ a ∈ as, ∃ w, a.img.view index = some w ∧ w.id = v.id) →
      pendingFor v r'.ctx.implicit = [] ∧ Others v k r'.ctx.implicit
      ∧ ranTimes k r'.cmds = ranTimes k r.cmds + (if env.enabled pass then 0 else 1)) := by
  intro as
  induction as with
  | nil =>
    intro r r' h _ _
    simp only [foldOpt, Option.some.injEq] at h
    subst h
    exact ⟨fun _ => sameFor_refl _ _ _, by simp⟩
  | cons a as ih =>
    intro r r' h hp ho
    unfold foldOpt at h
    split at h
    · simp at h
    · rename_i r1 e
      obtain ⟨w, haw, hs⟩ := recordImage_after env G v k index r r1 a e
      by_cases hw : w.id = v.id
      · refine ⟨fun hno => absurd hw (hno a (by simp) w haw), fun _ => ?_⟩
        have h1 := use_same env v w k r pass u hw hp
        have hp1 : pendingFor v r1.ctx.implicit = [] := by rw [hs.1]; exact h1.1
        have ho1 := hs.2.2 (h1.2.2 ho)
        have h2 := images_nothing env G v k index as r1 r' h hp1 ho1
        exact ⟨by rw [h2.1]; exact hp1, h2.2.2 ho1, by rw [h2.2.1, hs.2.1, h1.2.1]⟩
      · have h1 := sameFor_trans (use_other env v k _ r w rfl hw ho) hs
        have h2 := ih r1 r' h (by rw [h1.1]; exact hp) (h1.2.2 ho)
        refine ⟨fun hno => sameFor_trans h1 (h2.1 fun b hb => hno b (by simp [hb])), ?_⟩
        rintro ⟨b, hb, x, hx, hxv⟩
        rcases List.mem_cons.1 hb with rfl | hb
        · rw [haw, Option.some.injEq] at hx
          subst hx
          exact absurd hxv hw
        · have := h2.2 ⟨b, hb, x, hx, hxv⟩
          exact ⟨this.1, this.2.1, by rw [this.2.2, h1.2.1]⟩

/-- `m` is `n`, plus one if `c` holds. -/
def Counts (c : Prop) (n m : Nat) : Prop := (c → m = n + 1) ∧ (¬ c → m = n)

/-- The transitions pending for the view are the substitute, or nothing. -/
def Awaiting (v : View) (k pass : Nat) (w : Bool) (r : Rec) : Prop :=
  Others v k r.ctx.implicit ∧ pendingFor v r.ctx.implicit = if w then [⟨pass, v, .user k⟩] else []

theorem awaiting_same {v : View} {k pass : Nat} {w : Bool} {r r' : Rec} (h : Awaiting v k pass w r)
    (hs : SameFor v k r r') : Awaiting v k pass w r' := ⟨hs.2.2 h.1, by rw [hs.1]; exact h.2⟩

/-- Preparing a pass: the substitute stops waiting if the pass attaches the view, and runs if its pass is disabled. -/
theorem prepare_counts (env : Env) (G : GraphSt) (v : View) (k pass : Nat) (w : Bool) (q : RunPass) (index : Nat)
    (r r' : Rec) (h : prepare env G q index r = some r') (hw : Awaiting v k pass w r) :
    (¬ Attaches q index v → Awaiting v k pass w r') ∧ (Attaches q index v → Awaiting v k pass false r')
    ∧ Counts (w = true ∧ env.enabled pass = false ∧ Attaches q index v) (ranTimes k r.cmds) (ranTimes k r'.cmds) := by
  unfold prepare at h
  split at h
  · simp at h
  · rename_i r1 e1
    have hb := sameFor_buffers v k q.compute index q.buffers r1 r' h
    cases w with
    | false =>
      have h1 := sameFor_trans (images_nothing env G v k index q.images r r1 e1 hw.2 hw.1) hb
      exact ⟨fun _ => awaiting_same hw h1, fun _ => awaiting_same hw h1, fun hc => by simp at hc, fun _ => h1.2.1⟩
    | true =>
      have h1 := images_pending env G v k index pass v q.images r r1 e1 hw.2 hw.1
      by_cases ha : Attaches q index v
      · have h2 := h1.2 ha
        refine ⟨fun hn => absurd ha hn, fun _ => awaiting_same (r := r1) ⟨h2.2.1, h2.1⟩ hb, ?_, ?_⟩
        · rintro ⟨-, hd, -⟩
          rw [hb.2.1, h2.2.2, hd]; rfl
        · intro hn
          rw [hb.2.1, h2.2.2]
          have : env.enabled pass = true := by
            cases he : env.enabled pass
            · exact absurd ⟨rfl, he, ha⟩ hn
            · rfl
          simp [this]
      · have h2 := sameFor_trans (h1.1 fun a hm x hx e => ha ⟨a, hm, x, hx, e⟩) hb
        exact ⟨fun _ => awaiting_same hw h2, fun hn => absurd hn ha, fun hc => absurd hc.2.2 ha, fun _ => h2.2.1⟩

/-- Registrations for other views. -/
theorem register_others (v : View) (k pass : Nat) : ∀ (vas : List (View × Action)) (r : Rec),
    (∀ va ∈ vas, va.1.id ≠ v.id ∧ va.2 ≠ .user k ∧ ∀ s ∈ sources va.2, s.id ≠ v.id) →
    SameFor v k r (vas.foldl (fun r va => r.register ⟨pass, va.1, va.2⟩) r) := by
  intro vas
  induction vas with
  | nil => intro r _; exact sameFor_refl _ _ _
  | cons va vas ih =>
    intro r h
    have hva := h va (by simp)
    refine sameFor_trans (b := r.register ⟨pass, va.1, va.2⟩) ⟨?_, rfl, ?_⟩ (ih _ fun x hx => h x (by simp [hx]))
    · show pendingFor v (r.ctx.implicit ++ [_]) = _
      unfold pendingFor
      rw [List.filter_append]
      have : Implicit.isFor v ⟨pass, va.1, va.2⟩ = false := by
        unfold Implicit.isFor
        rw [beq_eq_false_iff_ne]
        exact hva.1
      simp [this]
    · intro ho t ht
      have ht' : t ∈ r.ctx.implicit ++ [⟨pass, va.1, va.2⟩] := ht
      rcases List.mem_append.1 ht' with ht' | ht'
      · exact ho t ht'
      · simp only [List.mem_singleton] at ht'
        subst ht'
        exact fun _ => hva.2

/-- Registration of the substitute. -/
theorem register_own (v : View) (k : Nat) (p : RunPass) (hp : ∃ pre post, p.implicitActions = pre ++ (v, .user k) :: post
    ∧ ∀ va ∈ pre ++ post, va.1.id ≠ v.id ∧ va.2 ≠ .user k ∧ ∀ s ∈ sources va.2, s.id ≠ v.id) (r : Rec)
    (h : Awaiting v k p.id false r) :
    Awaiting v k p.id true (registerAll p r) ∧ ranTimes k (registerAll p r).cmds = ranTimes k r.cmds := by
  obtain ⟨pre, post, he, hall⟩ := hp
  unfold registerAll
  rw [he, List.foldl_append, List.foldl_cons]
  have h1 := register_others v k p.id pre r fun x hx => hall x (by simp [hx])
  have h2 := awaiting_same h h1
  generalize hr1 : pre.foldl (fun r va => r.register ⟨p.id, va.1, va.2⟩) r = r1 at *
  have h3 : Awaiting v k p.id true (r1.register ⟨p.id, v, .user k⟩) := by
    refine ⟨?_, ?_⟩
    · intro t ht
      have ht' : t ∈ r1.ctx.implicit ++ [⟨p.id, v, .user k⟩] := ht
      rcases List.mem_append.1 ht' with ht' | ht'
      · exact h2.1 t ht'
      · simp only [List.mem_singleton] at ht'
        subst ht'
        exact fun hn => absurd rfl hn
    · show pendingFor v (r1.ctx.implicit ++ [_]) = _
      have e := h2.2
      unfold pendingFor at e ⊢
      rw [List.filter_append, e]
      simp [Implicit.isFor]
  have h4 := register_others v k p.id post (r1.register ⟨p.id, v, .user k⟩) fun x hx => hall x (by simp [hx])
  exact ⟨awaiting_same h3 h4, by rw [h4.2.1]; exact h1.2.1⟩

theorem recordInto_effect (env : Env) (G : GraphSt) (q : RunPass) (index : Nat) (f f' : Frame)
    (h : recordInto env G q index f = some f') :
    (env.enabled q.id = false ∧ f'.recd = registerAll q f.recd)
    ∨ (env.enabled q.id = true ∧ ∃ r, prepare env G q index f.recd = some r
      ∧ f'.recd = registerAll q (q.body index r)) := by
  unfold recordInto at h
  split at h
  · rename_i hen
    split at h
    · simp only at h
      split at h
      · simp at h
      · rename_i r hr
        simp only [Option.some.injEq] at h
        subst h
        have hrec : (if (!f.initialised q.id index) = true then f.initialise q index else f).recd = f.recd := by
          split <;> rfl
        rw [hrec] at hr
        exact Or.inr ⟨hen, r, hr, rfl⟩
    · simp at h
  · rename_i hen
    simp only [Option.some.injEq] at h
    subst h
    exact Or.inl ⟨by simpa using hen, rfl⟩

/-- The substitute is used by an enabled pass of the list, at a position at most `j`. -/
def UsedUpTo (env : Env) (index : Nat → Nat) (v : View) (ps : List RunPass) (j : Nat) : Prop :=
  ∃ u q, u ≤ j ∧ ps[u]? = some q ∧ env.enabled q.id = true ∧ Attaches q (index q.id) v

theorem usedUpTo_zero {env : Env} {index : Nat → Nat} {v : View} {p : RunPass} {ps : List RunPass}
    (he : env.enabled p.id = true) : UsedUpTo env index v (p :: ps) 0 ↔ Attaches p (index p.id) v := by
  constructor
  · rintro ⟨u, q, h1, h2, h3, h4⟩
    have : u = 0 := by omega
    subst this
    simp only [List.getElem?_cons_zero, Option.some.injEq] at h2
    subst h2; exact h4
  · exact fun h => ⟨0, p, by omega, rfl, he, h⟩

theorem usedUpTo_succ {env : Env} {index : Nat → Nat} {v : View} {p : RunPass} {ps : List RunPass} {j : Nat} :
    UsedUpTo env index v (p :: ps) (j + 1)
      ↔ (env.enabled p.id = true ∧ Attaches p (index p.id) v) ∨ UsedUpTo env index v ps j := by
  constructor
  · rintro ⟨u, q, h1, h2, h3, h4⟩
    cases u with
    | zero =>
      simp only [List.getElem?_cons_zero, Option.some.injEq] at h2
      subst h2; exact Or.inl ⟨h3, h4⟩
    | succ u => exact Or.inr ⟨u, q, by omega, h2, h3, h4⟩
  · rintro (⟨h1, h2⟩ | ⟨u, q, h1, h2, h3, h4⟩)
    · exact ⟨0, p, by omega, rfl, h1, h2⟩
    · exact ⟨u + 1, q, by omega, h2, h3, h4⟩

/-- The registrations of a pass concern other views and functions. -/
def Elsewhere (v : View) (k : Nat) (q : RunPass) : Prop :=
  ∀ va ∈ q.implicitActions, va.1.id ≠ v.id ∧ va.2 ≠ .user k ∧ ∀ s ∈ sources va.2, s.id ≠ v.id

/-- One pass other than the substitute's. -/
theorem step_counts (env : Env) (G : GraphSt) (v : View) (k pass : Nat) (w : Bool) (q : RunPass) (index : Nat)
    (hq : BodyQuiet k q) (hel : Elsewhere v k q) (f f' : Frame) (h : recordInto env G q index f = some f')
    (hw : Awaiting v k pass w f.recd) :
    ∃ w', Awaiting v k pass w' f'.recd ∧ (w = false → w' = false)
    ∧ (¬ (env.enabled q.id = true ∧ Attaches q index v) → w' = w)
    ∧ ((env.enabled q.id = true ∧ Attaches q index v) → w' = false)
    ∧ Counts (w = true ∧ env.enabled pass = false ∧ env.enabled q.id = true ∧ Attaches q index v)
        (ranTimes k f.recd.cmds) (ranTimes k f'.recd.cmds) := by
  rcases recordInto_effect env G q index f f' h with ⟨he, e⟩ | ⟨he, r, hr, e⟩
  · have hs := register_others v k q.id q.implicitActions f.recd hel
    rw [e]
    refine ⟨w, awaiting_same hw hs, id, fun _ => rfl, fun hc => ?_, fun hc => ?_, fun _ => hs.2.1⟩
    · rw [he] at hc; simp at hc
    · rw [he] at hc; simp at hc
  · have hp := prepare_counts env G v k pass w q index f.recd r hr hw
    have hb : SameFor v k r (q.body index r) := sameFor_eq (hq index r).1 (hq index r).2
    have hs : SameFor v k r f'.recd := by
      rw [e]; exact sameFor_trans hb (register_others v k q.id q.implicitActions _ hel)
    by_cases ha : Attaches q index v
    · refine ⟨false, awaiting_same (hp.2.1 ha) hs, fun _ => rfl, fun hn => absurd ⟨he, ha⟩ hn, fun _ => rfl, ?_, ?_⟩
      · rintro ⟨h1, h2, -, h4⟩
        rw [hs.2.1, hp.2.2.1 ⟨h1, h2, h4⟩]
      · intro hn
        rw [hs.2.1, hp.2.2.2 fun hc => hn ⟨hc.1, hc.2.1, he, hc.2.2⟩]
    · refine ⟨w, awaiting_same (hp.1 ha) hs, id, fun _ => rfl, fun hn => absurd hn.2 ha, fun hc => absurd hc.2.2.2 ha, ?_⟩
      intro _
      rw [hs.2.1, hp.2.2.2 fun hc => ha hc.2.2]

theorem awaiting_announce (env : Env) (G : GraphSt) (v : View) (k pass : Nat) (w : Bool) (p : RunPass)
    (next : List RunPass) (r : Rec) (h : Awaiting v k pass w r) :
    Awaiting v k pass w { r with ctx := announce env G p next r.ctx } := by
  unfold Awaiting at h ⊢
  rw [show (Rec.mk (announce env G p next r.ctx) r.cmds).ctx.implicit = r.ctx.implicit from
    (announce_keeps env G p next r.ctx).2]
  exact h

/-- After the pass whose substitute it is. -/
theorem rest_counts (env : Env) (G : GraphSt) (index : Nat → Nat) (v : View) (k pass : Nat) :
    ∀ (ps : List RunPass) (w : Bool) (f : Frame), (∀ q ∈ ps, BodyQuiet k q ∧ Elsewhere v k q) →
    Awaiting v k pass w f.recd →
    (∀ j r, EntersAt env G index ps f j r →
      Counts (w = true ∧ env.enabled pass = false ∧ UsedUpTo env index v ps j) (ranTimes k f.recd.cmds) (ranTimes k r.cmds))
    ∧ (∀ f', recordLoop env G index ps f = some f' →
      Counts (w = true ∧ env.enabled pass = false ∧ UsedUpTo env index v ps ps.length)
        (ranTimes k f.recd.cmds) (ranTimes k f'.recd.cmds)) := by
  intro ps
  induction ps with
  | nil =>
    intro w f _ _
    refine ⟨fun j r h => absurd h (by simp [EntersAt]), ?_⟩
    intro f' h
    simp only [recordLoop, Option.some.injEq] at h
    subst h
    refine ⟨?_, fun _ => rfl⟩
    rintro ⟨-, -, u, q, -, h, -⟩
    simp at h
  | cons p next ih =>
    intro w f hps hw
    have hp := hps p (by simp)
    have hn : ∀ q ∈ next, BodyQuiet k q ∧ Elsewhere v k q := fun q hq => hps q (by simp [hq])
    have hwa := awaiting_announce env G v k pass w p next f.recd hw
    -- the pass itself, then the rest
    have join : ∀ (w' : Bool) (n0 n1 n2 : Nat) (A U U' : Prop),
        (w = false → w' = false) → (¬ A → w' = w) → (A → w' = false) →
        Counts (w = true ∧ env.enabled pass = false ∧ A) n0 n1 →
        Counts (w' = true ∧ env.enabled pass = false ∧ U) n1 n2 → (U' ↔ A ∨ U) →
        Counts (w = true ∧ env.enabled pass = false ∧ U') n0 n2 := by
      intro w' n0 n1 n2 A U U' h1 h2 h3 h4 h5 h6
      by_cases hA : A
      · have hw' := h3 hA
        have e2 : n2 = n1 := h5.2 (by rw [hw']; simp)
        refine ⟨fun hc => by rw [e2]; exact h4.1 ⟨hc.1, hc.2.1, hA⟩, fun hc => ?_⟩
        rw [e2]
        exact h4.2 fun hd => hc ⟨hd.1, hd.2.1, h6.2 (Or.inl hA)⟩
      · have hw' := h2 hA
        have e1 : n1 = n0 := h4.2 fun hd => hA hd.2.2
        subst e1
        rw [hw'] at h5
        refine ⟨fun hc => h5.1 ⟨hc.1, hc.2.1, ?_⟩, fun hc => h5.2 fun hd => hc ⟨hd.1, hd.2.1, h6.2 (Or.inr hd.2.2)⟩⟩
        rcases h6.1 hc.2.2 with h | h
        · exact absurd h hA
        · exact h
    refine ⟨?_, ?_⟩
    · intro j r h
      cases j with
      | zero =>
        obtain ⟨he, hr⟩ := h
        have := (prepare_counts env G v k pass w p _ _ r hr hwa).2.2
        rw [usedUpTo_zero he]
        exact this
      | succ j =>
        obtain ⟨f1, e1, h1⟩ := h
        obtain ⟨w', a1, a2, a3, a4, a5⟩ := step_counts env G v k pass w p _ hp.1 hp.2 _ f1 e1 hwa
        exact join w' _ _ _ _ _ _ a2 a3 a4 a5 ((ih w' f1 hn a1).1 j r h1) usedUpTo_succ
    · intro f' h
      unfold recordLoop at h
      simp only at h
      split at h
      · simp at h
      · rename_i f1 e1
        obtain ⟨w', a1, a2, a3, a4, a5⟩ := step_counts env G v k pass w p _ hp.1 hp.2 _ f1 e1 hwa
        exact join w' _ _ _ _ _ _ a2 a3 a4 a5 ((ih w' f1 hn a1).2 f' h) usedUpTo_succ

/-- The substitute has been used by the `j`-th pass included: its pass is disabled and an enabled pass after it, not
after the `j`-th, attaches the view. -/
def StoodIn (env : Env) (index : Nat → Nat) (passes : List RunPass) (i : Nat) (p : RunPass) (v : View) (j : Nat) : Prop :=
  env.enabled p.id = false ∧ ∃ u q, i < u ∧ u ≤ j ∧ passes[u]? = some q ∧ env.enabled q.id = true
    ∧ Attaches q (index q.id) v

theorem stoodIn_cons {env : Env} {index : Nat → Nat} {x : RunPass} {ps : List RunPass} {i : Nat} {p : RunPass} {v : View}
    {j : Nat} : StoodIn env index (x :: ps) (i + 1) p v (j + 1) ↔ StoodIn env index ps i p v j := by
  constructor
  · rintro ⟨h, u, q, h1, h2, h3⟩
    obtain ⟨u, rfl⟩ : ∃ u', u = u' + 1 := ⟨u - 1, by omega⟩
    exact ⟨h, u, q, by omega, by omega, h3⟩
  · rintro ⟨h, u, q, h1, h2, h3⟩
    exact ⟨h, u + 1, q, by omega, by omega, h3⟩

theorem stoodIn_zero {env : Env} {index : Nat → Nat} {p : RunPass} {ps : List RunPass} {v : View} {j : Nat} :
    StoodIn env index (p :: ps) 0 p v (j + 1) ↔ env.enabled p.id = false ∧ UsedUpTo env index v ps j := by
  constructor
  · rintro ⟨h, u, q, h1, h2, h3⟩
    obtain ⟨u, rfl⟩ : ∃ u', u = u' + 1 := ⟨u - 1, by omega⟩
    exact ⟨h, u, q, by omega, h3⟩
  · rintro ⟨h, u, q, h1, h3⟩
    exact ⟨h, u + 1, q, by omega, by omega, h3⟩

theorem all_counts (env : Env) (G : GraphSt) (index : Nat → Nat) (v : View) (k : Nat) (p : RunPass) :
    ∀ (ps : List RunPass) (i : Nat) (f : Frame), (∀ q ∈ ps, BodyQuiet k q) → SubstituteOf ps i p v k →
    Awaiting v k p.id false f.recd →
    (∀ j r, EntersAt env G index ps f j r →
      Counts (StoodIn env index ps i p v j) (ranTimes k f.recd.cmds) (ranTimes k r.cmds))
    ∧ (∀ f', recordLoop env G index ps f = some f' →
      Counts (StoodIn env index ps i p v ps.length) (ranTimes k f.recd.cmds) (ranTimes k f'.recd.cmds)) := by
  intro ps
  induction ps with
  | nil => intro i f _ hs _; have := hs.here; simp at this
  | cons x next ih =>
    intro i f hb hs hw
    have hwa := awaiting_announce env G v k p.id false x next f.recd hw
    have hbx := hb x (by simp)
    have hbn : ∀ q ∈ next, BodyQuiet k q := fun q hq => hb q (by simp [hq])
    cases i with
    | zero =>
      have hx : x = p := by have := hs.here; simpa using this
      subst hx
      -- up to its own registration nothing is pending
      have own : ∀ f1, recordInto env G x (index x.id)
          { f with recd := { f.recd with ctx := announce env G x next f.recd.ctx } } = some f1 →
          Awaiting v k x.id true f1.recd ∧ ranTimes k f1.recd.cmds = ranTimes k f.recd.cmds := by
        intro f1 e1
        rcases recordInto_effect env G x _ _ f1 e1 with ⟨-, e⟩ | ⟨-, r, hr, e⟩
        · rw [e]; exact register_own v k x hs.own _ hwa
        · have hp := prepare_counts env G v k x.id false x _ _ r hr hwa
          have h1 : Awaiting v k x.id false r := by
            by_cases ha : Attaches x (index x.id) v
            · exact hp.2.1 ha
            · exact hp.1 ha
          have h2 : SameFor v k r (x.body (index x.id) r) := sameFor_eq (hbx _ r).1 (hbx _ r).2
          have h3 := register_own v k x hs.own _ (awaiting_same h1 h2)
          rw [e]
          exact ⟨h3.1, by rw [h3.2, h2.2.1, hp.2.2.2 (by simp)]⟩
      have hn : ∀ q ∈ next, BodyQuiet k q ∧ Elsewhere v k q := by
        intro q hq
        refine ⟨hbn q hq, ?_⟩
        obtain ⟨j, hj⟩ := List.getElem?_of_mem hq
        exact hs.others (j + 1) q (by omega) hj
      refine ⟨?_, ?_⟩
      · intro j r h
        cases j with
        | zero =>
          obtain ⟨he, hr⟩ := h
          have hp := (prepare_counts env G v k x.id false x _ _ r hr hwa).2.2
          refine ⟨?_, fun _ => hp.2 (by simp)⟩
          rintro ⟨-, u, q, h1, h2, -⟩
          omega
        | succ j =>
          obtain ⟨f1, e1, h1⟩ := h
          obtain ⟨o1, o2⟩ := own f1 e1
          have := (rest_counts env G index v k x.id next true f1 hn o1).1 j r h1
          rw [o2] at this
          exact ⟨fun hc => this.1 ⟨rfl, stoodIn_zero.1 hc⟩, fun hc => this.2 fun hd => hc (stoodIn_zero.2 hd.2)⟩
      · intro f' h
        unfold recordLoop at h
        simp only at h
        split at h
        · simp at h
        · rename_i f1 e1
          obtain ⟨o1, o2⟩ := own f1 e1
          have := (rest_counts env G index v k x.id next true f1 hn o1).2 f' h
          rw [o2] at this
          exact ⟨fun hc => this.1 ⟨rfl, stoodIn_zero.1 hc⟩, fun hc => this.2 fun hd => hc (stoodIn_zero.2 hd.2)⟩
    | succ i =>
      have hel : Elsewhere v k x := hs.others 0 x (by omega) rfl
      have hs' : SubstituteOf next i p v k :=
        ⟨hs.here, hs.own, fun j q hj hq => hs.others (j + 1) q (by omega) hq⟩
      have first : ∀ f1, recordInto env G x (index x.id)
          { f with recd := { f.recd with ctx := announce env G x next f.recd.ctx } } = some f1 →
          Awaiting v k p.id false f1.recd ∧ ranTimes k f1.recd.cmds = ranTimes k f.recd.cmds := by
        intro f1 e1
        obtain ⟨w', a1, a2, a3, a4, a5⟩ := step_counts env G v k p.id false x _ hbx hel _ f1 e1 hwa
        rw [a2 rfl] at a1
        exact ⟨a1, a5.2 (by simp)⟩
      refine ⟨?_, ?_⟩
      · intro j r h
        cases j with
        | zero =>
          obtain ⟨he, hr⟩ := h
          have hp := (prepare_counts env G v k p.id false x _ _ r hr hwa).2.2
          refine ⟨?_, fun _ => hp.2 (by simp)⟩
          rintro ⟨-, u, q, h1, h2, -⟩
          omega
        | succ j =>
          obtain ⟨f1, e1, h1⟩ := h
          obtain ⟨o1, o2⟩ := first f1 e1
          have := (ih i f1 hbn hs' o1).1 j r h1
          rw [o2] at this
          exact ⟨fun hc => this.1 (stoodIn_cons.1 hc), fun hc => this.2 fun hd => hc (stoodIn_cons.2 hd)⟩
      · intro f' h
        unfold recordLoop at h
        simp only at h
        split at h
        · simp at h
        · rename_i f1 e1
          obtain ⟨o1, o2⟩ := first f1 e1
          have := (ih i f1 hbn hs' o1).2 f' h
          rw [o2] at this
          exact ⟨fun hc => this.1 (stoodIn_cons.1 hc), fun hc => this.2 fun hd => hc (stoodIn_cons.2 hd)⟩

theorem start_awaiting (sepDS : Bool) (deps : List Ctx) (passes : List RunPass) (ini : Nat → Nat → Bool)
    (log : List Event) (v : View) (k pass : Nat) :
    Awaiting v k pass false (frameStart sepDS deps passes ini log).recd := by
  have e : (frameStart sepDS deps passes ini log).recd.ctx.implicit = [] := by
    show (firstAnnounce sepDS passes (startCtx deps)).implicit = []
    rw [(firstAnnounce_keeps sepDS passes (startCtx deps)).2, startCtx_implicit]
  unfold Awaiting
  rw [e]
  exact ⟨fun t ht => by simp at ht, rfl⟩

/-- C17 for whole graphs. Function `k` is the substitute pass `p` registers for view `v`. When the body of the `j`-th
pass starts, `k` has been called once if `p` is disabled and an enabled pass from the one after `p` to the `j`-th
attaches `v`; otherwise it has not been called. After the whole recording: once if `p` is disabled and an enabled pass
after `p` attaches `v`; otherwise never. -/
theorem substitute_runs_once (env : Env) (G : GraphSt) (deps : List Ctx) (index : Nat → Nat) (passes : List RunPass)
    (ini : Nat → Nat → Bool) (log : List Event) (i : Nat) (p : RunPass) (v : View) (k : Nat)
    (hs : SubstituteOf passes i p v k) (hb : ∀ q ∈ passes, BodyQuiet k q) :
    (∀ j r, EntersAt env G index passes (frameStart env.sepDS deps passes ini log) j r →
      (StoodIn env index passes i p v j → ranTimes k r.cmds = 1)
      ∧ (¬ StoodIn env index passes i p v j → ranTimes k r.cmds = 0))
    ∧ (∀ G' f, record env G deps index passes ini log = some (G', f) →
      (StoodIn env index passes i p v passes.length → ranTimes k f.recd.cmds = 1)
      ∧ (¬ StoodIn env index passes i p v passes.length → ranTimes k f.recd.cmds = 0)) := by
  have h := all_counts env G index v k p passes i (frameStart env.sepDS deps passes ini log) hb hs
    (start_awaiting env.sepDS deps passes ini log v k p.id)
  have h0 : ranTimes k (frameStart env.sepDS deps passes ini log).recd.cmds = 0 := rfl
  refine ⟨?_, ?_⟩
  · intro j r hr
    have := h.1 j r hr
    rw [h0] at this
    exact this
  · intro G' f e
    unfold record at e
    simp only at e
    split at e
    · simp at e
    · rename_i f1 e1
      simp only [Option.some.injEq, Prod.mk.injEq] at e
      obtain ⟨-, rfl⟩ := e
      have := h.2 f1 e1
      rw [h0] at this
      exact this

/-- Non-vacuity: a writer with a substitute, followed by a reader of the view. -/
def sWriter : RunPass := { xWriter with implicitActions := [(xView, .user 9)], body := fun _ r => r }
theorem example_substitute : SubstituteOf [sWriter, xReader] 0 sWriter xView 9
    ∧ (∀ q ∈ [sWriter, xReader], BodyQuiet 9 q)
    ∧ StoodIn ⟨false, fun i => i == xReader.id⟩ (fun _ => 0) [sWriter, xReader] 0 sWriter xView 2
    ∧ ((record ⟨false, fun i => i == xReader.id⟩ xG [] (fun _ => 0) [sWriter, xReader] (fun _ _ => false) []).map
        fun x => ranTimes 9 x.2.recd.cmds) = some 1
    ∧ ((record ⟨false, fun _ => true⟩ xG [] (fun _ => 0) [sWriter, xReader] (fun _ _ => false) []).map
        fun x => ranTimes 9 x.2.recd.cmds) = some 0 := by
  refine ⟨⟨rfl, ⟨[], [], rfl, by simp⟩, ?_⟩, ?_, ⟨by decide, 1, xReader, by decide, by decide, rfl, by decide, ?_⟩,
    by decide, by decide⟩
  · intro j q hj hq
    match j with
    | 0 => exact absurd rfl hj
    | 1 =>
      simp only [List.getElem?_cons_succ, List.getElem?_cons_zero, Option.some.injEq] at hq
      subst hq
      simp [xReader]
    | j + 2 => simp at hq
  · intro q hq
    simp only [List.mem_cons, List.not_mem_nil, or_false] at hq
    rcases hq with rfl | rfl
    · exact fun _ _ => ⟨rfl, rfl⟩
    · intro i r
      exact ⟨rfl, rfl⟩
  · exact ⟨_, List.mem_cons_self, xView, rfl, rfl⟩

end Verif.Run
