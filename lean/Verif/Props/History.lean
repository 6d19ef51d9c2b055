import Verif.Props.Keeps
/-
C91: what an execution leaves in an image is there for the next one.
-/
namespace Verif.Run
open Verif.Rec Verif.Att Verif.Gpu

/-! ### Specification -/

/-- The pass has an attachment it moves (sampled, storage, transfer, implicit) over the byte. -/
def Named (p : RunPass) (index : Nat) (c : Cell) : Prop :=
  ∃ a ∈ p.images, moved a = true ∧ ∃ v, a.img.view index = some v ∧ c.InView v

/-- The attachments the pass moves which hold the byte are inputs. -/
def Reads (p : RunPass) (index : Nat) (c : Cell) : Prop :=
  ∀ a ∈ p.images, moved a = true → ∀ v, a.img.view index = some v → c.InView v → a.isInput = true

/-- What is asked of a pass for it not to lose the byte. -/
structure Leaves (sepDS : Bool) (G : GraphSt) (V : View → Prop) (passes : List RunPass) (en : Nat → Bool) (index : Nat)
    (cached : Nat → Option RPass.PassObj) (p : RunPass) (c : Cell) : Prop where
  /-- it doesn't declare the image as a pure output -/
  reads : en p.id = true → Reads p index c
  /-- it doesn't draw to it without loading and storing it -/
  draws : ¬ MayLose en [p] c
  /-- it has no render pass object, kept from an earlier execution, that starts from an UNDEFINED layout of it -/
  object : en p.id = true → ∀ o, cached index = some o → ∀ e ∈ o.entries, c.InView e.view → e.input.layout ≠ Layout.undefined
  /-- its substitutes don't touch it -/
  substitutes : ∀ va ∈ p.implicitActions, ∀ w ∈ touched va.2, ¬ c.InView w
  /-- its body, if it is the user's and the image isn't attached to the pass, doesn't move it -/
  body : en p.id = true → Named p index c ∨ Lib.Kind sepDS G (fun v => V v ∧ ¬ c.InView v) passes cached p

/-- From `r` on, `r'` only adds commands, none of which discards the byte. -/
def NoneDiscards (c : Cell) (r r' : Rec) : Prop := ∃ cs, r'.cmds = r.cmds ++ cs ∧ ∀ k ∈ cs, ¬ Discards k c

/-! ### Lemmas -/

def Tracked (c : Cell) (r : Rec) : Prop := r.ctx.images.at c.image c.layer c.level ≠ none

/-- Pending substitutes don't touch the byte. -/
def Clear (c : Cell) (r : Rec) : Prop := ∀ t ∈ r.ctx.implicit, ∀ w ∈ touched t.action, ¬ c.InView w

def Calm (c : Cell) (r r' : Rec) : Prop := NoneDiscards c r r' ∧ (Clear c r → Clear c r')

variable {c : Cell}

theorem none_refl (r : Rec) : NoneDiscards c r r := ⟨[], by simp, by simp⟩

theorem none_trans {a b d : Rec} (h1 : NoneDiscards c a b) (h2 : NoneDiscards c b d) : NoneDiscards c a d := by
  obtain ⟨cs, e1, p1⟩ := h1
  obtain ⟨ds, e2, p2⟩ := h2
  refine ⟨cs ++ ds, by rw [e2, e1, List.append_assoc], fun k hk => ?_⟩
  rcases List.mem_append.1 hk with hk | hk
  · exact p1 k hk
  · exact p2 k hk

theorem calm_refl (r : Rec) : Calm c r r := ⟨none_refl r, id⟩
theorem calm_trans {a b d : Rec} (h1 : Calm c a b) (h2 : Calm c b d) : Calm c a d :=
  ⟨none_trans h1.1 h2.1, fun h => h2.2 (h1.2 h)⟩

theorem calm_ctx (r : Rec) (x : Ctx) (h : x.implicit = r.ctx.implicit) : Calm c r { r with ctx := x } :=
  ⟨⟨[], by simp, by simp⟩, fun hc t ht => hc t (by rw [← h]; exact ht)⟩

theorem calm_emit (r : Rec) (k : Cmd) (hk : ¬ Discards k c) : Calm c r (r.emit k) :=
  ⟨⟨[k], rfl, fun x hx => by rw [List.mem_singleton] at hx; subst hx; exact hk⟩, id⟩

theorem calm_imageBarrier (env : Env) (r : Rec) (img : Image) (vt : ViewType) (sub : Range) (i : Nat) (wn : LayoutState)
    (f : Bool) (h : c.image = img.id → sub.Has c.layer c.level → i ≠ Layout.undefined) :
    Calm c r (r.imageBarrier env img vt sub i wn f) := by
  refine ⟨?_, ?_⟩
  · obtain ⟨src, hsrc, ⟨-, e⟩ | ⟨-, e⟩⟩ := imageBarrier_cases env r img vt sub i wn f <;> rw [e]
    · refine ⟨_, rfl, ?_⟩
      intro k hk
      simp only [List.mem_singleton] at hk
      subst hk
      rintro ⟨h1, h2, h3⟩
      by_cases hu : (r.ctx.images.getState img vt (adaptRange env.sepDS img.format sub)).layout = Layout.undefined
      · rw [if_pos hu] at hsrc
        rw [hsrc] at h1
        exact h h2 ((adaptRange_has _ _ _ _ _).1 h3.2) h1
      · rw [if_neg hu] at hsrc
        rw [hsrc] at h1
        exact hu h1
    · exact none_refl r
  · unfold Clear
    rw [Lib.imageBarrier_implicit]
    exact id

theorem calm_barrier (env : Env) (r : Rec) (v : View) (i : Nat) (wn : LayoutState) (f : Bool)
    (h : c.InView v → i ≠ Layout.undefined) : Calm c r (r.viewBarrier env v i wn f) :=
  calm_imageBarrier env r _ _ _ i wn f fun h1 h2 => h ⟨h1, h2⟩

theorem calm_final (env : Env) (r : Rec) (v : View) (l : Nat) (h : ¬ c.InView v) : Calm c r (r.finalBarrier env v l) := by
  unfold Rec.finalBarrier
  split
  · exact calm_barrier env r v _ _ _ fun hc => absurd hc h
  · exact calm_refl r

theorem calm_bufferBarrier (r : Rec) (b o s : Nat) (i w : AccessState) (f : Bool) : Calm c r (r.bufferBarrier b o s i w f) := by
  unfold Rec.bufferBarrier
  simp only
  generalize (if (r.ctx.getAccess b).stage = Stage.bottomOfPipe then i else r.ctx.getAccess b) = src
  split
  · exact calm_trans (calm_emit r (.bufferBarrier b o s src w) fun h => h) (calm_ctx _ _ rfl)
  · exact calm_refl r

theorem calm_runImplicit (env : Env) (r : Rec) (v : View) (hc : Clear c r) : Calm c r (r.runImplicit env v) := by
  have := runImplicit_lift env (NoneDiscards c) (fun w => ¬ c.InView w) (fun _ => True) none_refl (fun _ _ _ => none_trans)
    (fun r w i wn f hw _ => (calm_barrier env r w i wn f fun h => absurd h hw).1) (fun r k _ h => (calm_emit r k (h c)).1)
    (fun r l => ⟨[], by simp, by simp⟩)
    _ r v rfl trivial (fun t ht _ _ _ w hw => ⟨hc t ht w hw, trivial⟩)
  exact ⟨this.1, fun h t ht => h t (this.2 t ht)⟩

/-- A view holding a byte the graph remembers has a known layout. -/
theorem remembered_known {G : GraphSt} (hd : Defined G.final) (hf : G.final.images.at c.image c.layer c.level ≠ none)
    (x : Ctx) {v : View} (hv : v.viewType ≠ .d3) (hc : c.InView v) :
    (getCurrentLayoutState G x v).1.layout ≠ Layout.undefined := by
  have h := tracked_known hd hv hc.2 (by rw [← hc.1]; exact hf)
  unfold getCurrentLayoutState
  simp only
  (repeat' split) <;> first | assumption | exact absurd (by assumption) (by assumption)

theorem calm_recordImage {env : Env} {G : GraphSt} {index : Nat} {a : Attachment} {r r' : Rec}
    (hd : Defined G.final) (hf : G.final.images.at c.image c.layer c.level ≠ none)
    (hv : ∀ v ∈ a.img.views, v.viewType ≠ .d3)
    (hr : moved a = true → ∀ v, a.img.view index = some v → c.InView v → a.isInput = true) (hc : Clear c r)
    (e : recordImage env G index r a = some r') : Calm c r r' := by
  unfold recordImage at e
  cases hvw : a.img.view index with
  | none => rw [hvw] at e; simp at e
  | some v =>
    rw [hvw] at e
    simp only at e
    have h3 := hv v (view_mem hvw)
    have s1 := calm_runImplicit env r v hc
    generalize r.runImplicit env v = r1 at e s1
    split at e
    · rename_i hm
      have s2 : Calm c r1 { r1 with ctx := (if (!a.isInput) = true then (makeLayoutState Layout.undefined, r1.ctx)
          else getCurrentLayoutState G r1.ctx v).2 } := by
        split
        · exact calm_refl r1
        · exact calm_ctx r1 _ (RPass.current_other G r1.ctx v).1
      have hk : c.InView v → (if (!a.isInput) = true then (makeLayoutState Layout.undefined, r1.ctx)
          else getCurrentLayoutState G r1.ctx v).1.layout ≠ Layout.undefined := by
        intro h
        rw [hr hm v hvw h]
        exact remembered_known hd hf r1.ctx h3 h
      generalize (if (!a.isInput) = true then (makeLayoutState Layout.undefined, r1.ctx)
          else getCurrentLayoutState G r1.ctx v) = cur at e s2 hk
      generalize ({ r1 with ctx := cur.2 } : Rec) = r2 at e s2
      split at e
      · simp only [Option.some.injEq] at e
        subst e
        exact calm_trans s1 (calm_trans s2 (calm_trans (calm_barrier env r2 v _ clearState false hk)
          (calm_trans (calm_emit _ _ (by intro h; exact h)) (calm_barrier env _ v _ _ false fun _ => by decide))))
      · simp only [Option.some.injEq] at e
        subst e
        exact calm_trans s1 (calm_trans s2 (calm_barrier env r2 v _ _ false hk))
    · simp only [Option.some.injEq] at e
      subst e
      exact s1

theorem calm_foldOpt {α : Type} {f : Rec → α → Option Rec} : ∀ (as : List α),
    (∀ a ∈ as, ∀ r r', Clear c r → f r a = some r' → Calm c r r') → ∀ {r r' : Rec}, Clear c r →
    foldOpt f r as = some r' → Calm c r r'
  | [], _, r, r', _, e => by
    simp only [foldOpt, Option.some.injEq] at e
    subst e
    exact calm_refl r
  | a :: as, h, r, r', hp, e => by
    unfold foldOpt at e
    cases e1 : f r a with
    | none => rw [e1] at e; simp at e
    | some r1 =>
      rw [e1] at e
      have s1 := h a (by simp) r r1 hp e1
      exact calm_trans s1 (calm_foldOpt as (fun b hb => h b (by simp [hb])) (s1.2 hp) e)

theorem calm_recordBuffer {compute : Bool} {index : Nat} {a : Attachment} {r r' : Rec}
    (e : recordBuffer compute index r a = some r') : Calm c r r' := by
  unfold recordBuffer at e
  split at e
  · split at e
    · simp at e
    · simp only at e
      split at e
      · simp only [Option.some.injEq] at e
        subst e
        exact calm_trans (calm_bufferBarrier _ _ _ _ _ _ _) (calm_trans (calm_emit _ _ (by intro h; exact h))
          (calm_bufferBarrier _ _ _ _ _ _ _))
      · simp only [Option.some.injEq] at e
        subst e
        exact calm_bufferBarrier _ _ _ _ _ _ _
  · simp only [Option.some.injEq] at e
    subst e
    exact calm_refl r

theorem calm_prepare {env : Env} {G : GraphSt} {p : RunPass} {index : Nat} {r r' : Rec}
    (hd : Defined G.final) (hf : G.final.images.at c.image c.layer c.level ≠ none)
    (hv : ∀ a ∈ p.images, ∀ v ∈ a.img.views, v.viewType ≠ .d3) (hr : Reads p index c) (hc : Clear c r)
    (e : prepare env G p index r = some r') : Calm c r r' := by
  unfold prepare at e
  cases e1 : foldOpt (recordImage env G index) r p.images with
  | none => rw [e1] at e; simp at e
  | some r1 =>
    rw [e1] at e
    have s1 := calm_foldOpt p.images (fun a ha r r' hp e => calm_recordImage hd hf (hv a ha) (hr a ha) hp e) hc e1
    exact calm_trans s1 (calm_foldOpt p.buffers (fun a ha r r' _ e => calm_recordBuffer e) (s1.2 hc) e)

theorem calm_registerAll {p : RunPass} (ha : ∀ va ∈ p.implicitActions, ∀ w ∈ touched va.2, ¬ c.InView w) (r : Rec) :
    Calm c r (registerAll p r) := by
  have : ∀ (l : List (View × Action)), (∀ va ∈ l, ∀ w ∈ touched va.2, ¬ c.InView w) → ∀ r : Rec,
      Calm c r (l.foldl (fun r va => r.register ⟨p.id, va.1, va.2⟩) r) := by
    intro l
    induction l with
    | nil => intro _ r; exact calm_refl r
    | cons va l ih =>
      intro h r
      refine calm_trans (b := r.register ⟨p.id, va.1, va.2⟩) ⟨⟨[], by simp [Rec.register], by simp⟩, ?_⟩
        (ih (fun x hx => h x (by simp [hx])) _)
      intro hp t ht
      simp only [Rec.register, List.mem_append, List.mem_singleton] at ht
      rcases ht with ht | rfl
      · exact hp t ht
      · exact h va (by simp)
  exact this _ ha r

theorem calm_performAll (sepDS : Bool) {V : View → Prop} {passes : List RunPass} :
    ∀ (calls : List Call), (∀ x ∈ calls, BodyCall (fun v => V v ∧ ¬ c.InView v) passes x) → ∀ r : Rec, Clear c r →
      Calm c r (performAll sepDS r calls)
  | [], _, r, _ => calm_refl r
  | x :: cs, hc, r, hp => by
    have h1 : Calm c r (perform sepDS r x) := by
      have hcc := hc x (by simp)
      cases x with
      | barrier v i w f => exact calm_barrier _ r v i w f fun h => absurd h hcc.1.2
      | buffer q => exact calm_bufferBarrier _ _ _ _ _ _ _
      | register t =>
        refine ⟨⟨[], by simp [perform, Rec.register], by simp⟩, ?_⟩
        intro hp u hu
        simp only [perform, Rec.register, List.mem_append, List.mem_singleton] at hu
        rcases hu with hu | rfl
        · exact hp u hu
        · exact fun w hw => (touched_in hcc.2.1 w hw).2
      | use v en => exact calm_runImplicit _ r v hp
      | work k => exact calm_emit r (.work k) fun h => h
    exact calm_trans h1 (calm_performAll sepDS cs (fun x hx => hc x (by simp [hx])) _ (h1.2 hp))

theorem calm_foldl {α : Type} (f : Rec → α → Rec) : ∀ (l : List α), (∀ a ∈ l, ∀ r, Calm c r (f r a)) → ∀ (r : Rec),
    Calm c r (l.foldl f r)
  | [], _, r => calm_refl r
  | a :: l, h, r => calm_trans (h a (by simp) r) (calm_foldl f l (fun b hb => h b (by simp [hb])) (f r a))

theorem calm_generate (env : Env) (G : GraphSt) (v : View) (ty : ViewType) (next : LayoutState)
    (h0 : v.range.baseMip = 0) (h1 : v.range.levels = v.image.mipLevels) (h2 : 2 ≤ v.image.mipLevels) (hn : ¬ c.InView v) (r : Rec) :
    Calm c r (Mip.generate env G v ty next r) := by
  unfold Mip.generate
  refine calm_foldl _ _ (fun layer hl r => ?_) _
  rw [List.mem_range'_1] at hl
  have hin : ∀ l, l < v.image.mipLevels → c.image = v.image.id →
      (Mip.sub (getAspectMask v.image.format) layer l).Has c.layer c.level → False := by
    rintro l hlt e ⟨q1, q2, q3, q4⟩
    simp only [Mip.sub] at q1 q2 q3 q4
    exact hn ⟨e, by unfold Range.Has; omega⟩
  unfold Mip.layerStep
  simp only
  have s1 : Calm c r { r with ctx := (getCurrentLayoutState G r.ctx { v with range := Mip.sub (getAspectMask v.image.format) layer 0 }).2 } :=
    calm_ctx r _ (RPass.current_other G r.ctx _).1
  generalize getCurrentLayoutState G r.ctx { v with range := Mip.sub (getAspectMask v.image.format) layer 0 } = cur at s1 ⊢
  refine calm_trans s1 (calm_trans (calm_imageBarrier env _ v.image ty (Mip.sub (getAspectMask v.image.format) layer 0)
    cur.1.layout Mip.srcState false fun a b => absurd (hin 0 (by omega) a b) id) ?_)
  refine calm_foldl _ _ (fun l hl r => ?_) _
  rw [List.mem_range'_1] at hl
  have hin1 := hin l (by omega)
  have hin2 := hin (l - 1) (by omega)
  unfold Mip.levelStep
  simp only
  generalize getAspectMask v.image.format = asp at hin1 hin2 ⊢
  have s1 := calm_imageBarrier (c := c) env r v.image ty (Mip.sub asp layer l) Layout.undefined
    (makeLayoutState Layout.transferDst) false (fun a b => absurd (hin1 a b) id)
  generalize r.imageBarrier env v.image ty (Mip.sub asp layer l) Layout.undefined (makeLayoutState Layout.transferDst) false
    = r1 at s1 ⊢
  have s2 := calm_emit (c := c) r1 (.blitImage v.image.id Layout.transferSrc (Mip.sub asp layer (l - 1)) (Mip.corners v.image (l - 1))
    v.image.id Layout.transferDst (Mip.sub asp layer l) (Mip.corners v.image l) Mip.filterLinear) (by intro h; exact h)
  generalize r1.emit _ = r2 at s2 ⊢
  have s3 := calm_imageBarrier (c := c) env r2 v.image ty (Mip.sub asp layer (l - 1)) Layout.transferSrc next false
    (fun a b => absurd (hin2 a b) id)
  refine calm_trans s1 (calm_trans s2 (calm_trans s3 ?_))
  split
  · exact calm_imageBarrier env _ _ _ _ _ _ _ (fun a b => absurd (hin1 a b) id)
  · exact calm_imageBarrier env _ _ _ _ _ _ _ (fun a b => absurd (hin1 a b) id)

theorem calm_copyPairs (env : Env) (size : Xfer.Extent) (final index : Nat) : ∀ (as : List Attachment),
    (∀ ab ∈ Xfer.pairs as, ∀ v, ab.2.img.view index = some v → ¬ c.InView v) →
    ∀ {r r' : Rec}, Xfer.copyPairs env size final index as r = some r' → Calm c r r'
  | [], _, r, r', e => by
    simp only [Xfer.copyPairs, Option.some.injEq] at e
    subst e
    exact calm_refl r
  | [_], _, r, r', e => by simp [Xfer.copyPairs] at e
  | s :: t :: rest, h, r, r', e => by
    unfold Xfer.copyPairs at e
    split at e
    · simp at e
    · rename_i r1 e1
      unfold Xfer.copyPair at e1
      split at e1
      · rename_i sv tv hs ht
        simp only [Option.some.injEq] at e1
        subst e1
        exact calm_trans (calm_trans (calm_emit r _ (by intro h; exact h))
          (calm_final env _ tv final (h (s, t) (by simp [Xfer.pairs]) tv ht)))
          (calm_copyPairs env size final index rest (fun a ha => h a (by simp [Xfer.pairs, ha])) e)
      · simp at e1

theorem pairs_mem : ∀ {as : List Attachment} {ab : Attachment × Attachment}, ab ∈ Xfer.pairs as → ab.1 ∈ as ∧ ab.2 ∈ as
  | [], _, h => by simp [Xfer.pairs] at h
  | [_], _, h => by simp [Xfer.pairs] at h
  | s :: t :: rest, ab, h => by
    simp only [Xfer.pairs, List.mem_cons] at h
    rcases h with rfl | h
    · simp
    · have := pairs_mem h
      simp [this.1, this.2]

theorem calm_transfers {sepDS : Bool} {p : RunPass} {index : Nat} (hn : ¬ Named p index c)
    (hX : Xfer.Transfers sepDS p) (r : Rec) : Calm c r (p.body index r) := by
  cases hX with
  | imageCopy en size final body declared =>
    rw [body]
    cases e : Xfer.imageCopy ⟨sepDS, en⟩ p size final index r with
    | none => exact calm_refl r
    | some r' =>
      refine calm_copyPairs ⟨sepDS, en⟩ size final index p.images (fun ab hab v hv hc => hn ?_) e
      exact ⟨ab.2, (pairs_mem hab).2, (declared ab hab).2.1, v, hv, hc⟩
  | imageBlit so ss dof ds fi body d1 d2 =>
    rw [body]
    unfold Xfer.imageBlit
    split
    · split
      · exact calm_emit r _ (by intro h; exact h)
      · exact calm_refl r
    · exact calm_refl r
  | bufferCopy co cr body =>
    rw [body]
    unfold Xfer.bufferCopy
    split
    · split
      · exact calm_trans (calm_bufferBarrier _ _ _ _ _ _ _) (calm_trans (calm_bufferBarrier _ _ _ _ _ _ _)
          (calm_trans (calm_emit _ _ (by intro h; exact h)) (calm_trans (calm_bufferBarrier _ _ _ _ _ _ _)
            (calm_bufferBarrier _ _ _ _ _ _ _))))
      · exact calm_refl r
    · exact calm_refl r
  | bufferToImage o s body d =>
    rw [body]
    unfold Xfer.bufferToImage
    split
    · split
      · exact calm_emit r _ (by intro h; exact h)
      · exact calm_refl r
    · exact calm_refl r
  | imageToBuffer o s body d =>
    rw [body]
    unfold Xfer.imageToBuffer
    split
    · split
      · exact calm_emit r _ (by intro h; exact h)
      · exact calm_refl r
    · exact calm_refl r

/-- A pass that draws. -/
theorem calm_draws {sepDS : Bool} {fmt : Nat → Nat} {V : View → Prop} {passes : List RunPass} {G : GraphSt}
    (hT : TidyViews sepDS fmt V passes) {p : RunPass} (hp : p ∈ passes)
    (hd : Defined G.final) (hfin : G.final.images.at c.image c.layer c.level ≠ none)
    (hD : RPass.Declares sepDS p) {index w ht : Nat} {cached : Option RPass.PassObj}
    (hmade : ∀ o, cached = some o → RPass.MadeFor sepDS p index o)
    (hobj : ∀ o, cached = some o → ∀ e ∈ o.entries, c.InView e.view → e.input.layout ≠ Layout.undefined)
    {draw : List Nat} {r r' : Rec} {o : RPass.PassObj}
    (e : RPass.recordPass sepDS G w ht p cached draw index r = some (o, r')) {en : Nat → Bool} (hen : en p.id = true)
    (hl : ¬ MayLose en [p] c) : Calm c r r' := by
  unfold RPass.recordPass at e
  cases e0 : RPass.initialise sepDS G w ht p index cached r.ctx with
  | none => rw [e0] at e; simp at e
  | some obc =>
    obtain ⟨o1, b, x⟩ := obc
    rw [e0] at e
    simp only [Option.map_some, Option.some.injEq, Prod.mk.injEq] at e
    obtain ⟨rfl, rfl⟩ := e
    have hm : RPass.MadeFor sepDS p index o1 := by
      rcases RPass.initialise_cases e0 with ⟨-, hq, -⟩ | ⟨-, hf⟩
      · exact hmade o1 hq
      · exact ⟨G, r.ctx, x, w, ht, hf⟩
    obtain ⟨ts, hts, ho⟩ := RPass.parts_correspond hD hm
    have hatt : ∀ av ∈ ts, av.1 ∈ p.images ∧ RPass.isTarget av.1 = true ∧ av.2 ∈ av.1.img.views ∧ av.2.viewType ≠ .d3 := by
      intro av hav
      have h1 : av.1 ∈ p.images.filter RPass.isTarget := by
        rw [← hts.all]; exact List.mem_map_of_mem hav
      have h2 := List.mem_filter.1 h1
      have h3 := view_mem (hts.view av hav)
      exact ⟨h2.1, h2.2, h3, hT.tidy.view _ (hT.attached av.2 ⟨p, hp, av.1, h2.1, h3⟩).1⟩
    have hall : x.implicit = r.ctx.implicit
        ∧ (∀ (k : Nat) (av : Attachment × View) (en : RPass.Entry), ts[k]? = some av → o1.entries[k]? = some en → av.1.isInput = true →
          c.InView av.2 → en.input.layout ≠ Layout.undefined) := by
      rcases RPass.initialise_cases e0 with ⟨rfl, hq, hchk, hpv, hnx, rfl⟩ | ⟨hb, hf⟩
      · refine ⟨rfl, ?_⟩
        intro k av en hk he _ hs
        obtain ⟨en', d, g1, g2, g3, -⟩ := ho.at' k av hk
        rw [he] at g1
        cases g1
        exact hobj o1 hq en (List.mem_of_getElem? he) (by rw [g3]; exact hs)
      · obtain ⟨q1, q2, f1, f2, f3⟩ := RPass.initialise_new hf
        obtain ⟨us, u1, u2, u3, u4, u5, u6⟩ := RPass.createAll_ctx hT hp p.images (fun _ h => h) (hT.apart p hp index) _ _ _ _ f1
        refine ⟨u3, ?_⟩
        intro k av en hk he hi hs
        rw [RPass.made_entries hT hp hts hf, List.getElem?_map, hk] at he
        rw [← Option.some.inj he]
        unfold RPass.entryOf
        simp only [hi, Bool.not_true, Bool.false_eq_true, if_false]
        exact remembered_known hd hfin r.ctx (hatt av (List.mem_of_getElem? hk)).2.2.2 hs
    obtain ⟨hc1, hc3⟩ := hall
    refine ⟨⟨.beginPass o1.atts o1.width o1.height o1.layers :: (draw.map .user ++ [.endPass o1.atts]), ?_, ?_⟩, ?_⟩
    · show ((r.cmds ++ [_]) ++ draw.map .user) ++ [_] = _
      simp
    · intro k hk hd
      apply hl
      simp only [List.mem_cons, List.mem_append, List.mem_map, List.not_mem_nil, or_false] at hk
      rcases hk with rfl | ⟨n, -, rfl⟩ | rfl
      · obtain ⟨y, hy, hof, h⟩ := hd
        obtain ⟨j, av, d, h1, h2, rfl⟩ := RPass.att_of ho hy
        obtain ⟨en, d', g1, g2, g3, g4, g5, g6, g7, g8, g9, g10, g11, g12⟩ := ho.at' j av h1
        rw [h2] at g2
        cases g2
        obtain ⟨a1, a2, a3, a4⟩ := hatt av (List.mem_of_getElem? h1)
        refine ⟨p, by simp, hen, av.1, a1, a2, av.2, a3, ⟨hof.1.symm, hof.2.2⟩, ?_⟩
        cases hi : av.1.isInput with
        | false => exact Or.inl rfl
        | true =>
          right
          have hin := hc3 j av en h1 g1 hi ⟨hof.1.symm, hof.2.2⟩
          rcases h with h | h
          · exact absurd (g5.symm.trans h) hin
          · unfold RPass.PassObj.att at h
            unfold RPass.loadOpFor
            by_cases h2 : c.aspect = 2
            · simp only [h2, if_true] at h ⊢
              rw [g9, g4, getAspectMask_eq, Bool.and_eq_false_iff] at h
              rcases h with h | h
              · left; simpa using h
              · exact Or.inr (Or.inr ⟨trivial, h⟩)
            · simp only [h2, if_false] at h ⊢
              rw [g7, if_neg hin] at h
              left; simpa using h
      · exact absurd hd (fun h => h)
      · obtain ⟨y, hy, hof, h⟩ := hd
        obtain ⟨j, av, d, h1, h2, rfl⟩ := RPass.att_of ho hy
        obtain ⟨en, d', g1, g2, g3, g4, g5, g6, g7, g8, g9, g10, g11, g12⟩ := ho.at' j av h1
        rw [h2] at g2
        cases g2
        obtain ⟨a1, a2, a3, a4⟩ := hatt av (List.mem_of_getElem? h1)
        refine ⟨p, by simp, hen, av.1, a1, a2, av.2, a3, ⟨hof.1.symm, hof.2.2⟩, Or.inr (Or.inr (Or.inl ?_))⟩
        unfold RPass.PassObj.att at h
        unfold RPass.storeOpFor
        simp only [g8, g10] at h
        by_cases h2 : c.aspect = 2
        · simp only [h2, if_true] at h ⊢; simpa using h
        · simp only [h2, if_false] at h ⊢; simpa using h
    · intro hf t ht
      refine hf t ?_
      have : (RPass.endPass { RPass.beginPass { r with ctx := x } o1 with
            cmds := (RPass.beginPass { r with ctx := x } o1).cmds ++ draw.map .user } o1).ctx.implicit = r.ctx.implicit :=
        (RPass.setAll_keeps (fun e => e.output) o1.entries _).trans ((RPass.setAll_keeps (fun e => e.input) o1.entries x).trans hc1)
      rw [← this]
      exact ht

/-- The body of a pass of any kind, when the byte isn't attached to it. -/
theorem calm_kind {sepDS : Bool} {fmt : Nat → Nat} {V : View → Prop} {passes : List RunPass} {G : GraphSt}
    (hT : TidyViews sepDS fmt V passes) (cached : Nat → Option RPass.PassObj) {p : RunPass} (hp : p ∈ passes)
    (hd : Defined G.final) (hfin : G.final.images.at c.image c.layer c.level ≠ none) {index : Nat} {en : Nat → Bool}
    (hmade : ∀ o, cached index = some o → RPass.MadeFor sepDS p index o) (hen : en p.id = true)
    (hL : Leaves sepDS G V passes en index cached p c) (hn : ¬ Named p index c) {r : Rec} (hc : Clear c r) :
    Calm c r (p.body index r) := by
  rcases (hL.body hen).resolve_left hn with ⟨hR, hD⟩ | hX | ⟨ty, output, hM⟩ | hb
  · obtain ⟨w, ht, draw, hb⟩ := hR
    rw [hb]
    cases e1 : RPass.recordPass sepDS G w ht p (cached index) draw index r with
    | none => exact calm_refl r
    | some x =>
      obtain ⟨o, r'⟩ := x
      exact calm_draws hT hp hd hfin hD hmade (hL.object hen) e1 hen hL.draws
  · exact calm_transfers hn hX r
  · obtain ⟨en', hb⟩ := hM.body index r
    rw [hb]
    split
    · rename_i a ha
      obtain ⟨d1, d2⟩ := hM.declared a ha
      split
      · rename_i v hv
        obtain ⟨e1, e2, e3⟩ := d2 v (view_mem hv)
        exact calm_generate ⟨sepDS, en'⟩ G v ty _ e1 e2 e3
          (fun h => hn ⟨a, List.mem_of_mem_head? ha, d1, v, hv, h⟩) r
      · exact calm_refl r
    · exact calm_refl r
  · obtain ⟨calls, hb, e⟩ := hb index r
    rw [e]
    exact calm_performAll sepDS calls hb r hc

/-! ### The loop -/

/-- What is kept from command to command. -/
structure Safe (c : Cell) (r : Rec) : Prop where
  defined : Defined r.ctx
  flat : FlatPending r
  known : Tracked c r ∨ Clear c r

/-- A step keeps it, and loses nothing. -/
def Goes (c : Cell) (r r' : Rec) : Prop := Safe c r → NoneDiscards c r r' ∧ Safe c r'

theorem goes_trans {a b d : Rec} (h1 : Goes c a b) (h2 : Goes c b d) : Goes c a d := fun h =>
  ⟨none_trans (h1 h).1 (h2 (h1 h).2).1, (h2 (h1 h).2).2⟩

theorem goes_of {L : Cell → Prop} {r r' : Rec} (s : FlatPending r → Steady L r r') (hl : ¬ L c)
    (h : FlatPending r → ¬ Tracked c r → Clear c r → Calm c r r') : Goes c r r' := by
  intro ⟨h1, h2, h3⟩
  have s := s h2
  obtain ⟨d1, d2, cs, d3, d4⟩ := s.1 h1
  by_cases ht : Tracked c r
  · exact ⟨⟨cs, d3, fun k hk hd => hl (d4 k hk c ht hd).2⟩, d1, s.2 h2, Or.inl fun hx => ht (d2 _ _ _ hx)⟩
  · have hcl := h3.resolve_left ht
    obtain ⟨k1, k2⟩ := h h2 ht hcl
    exact ⟨k1, d1, s.2 h2, Or.inr (k2 hcl)⟩

variable {sepDS : Bool} {fmt : Nat → Nat} {V : View → Prop} {passes : List RunPass} {g0 : Layouts} {G : GraphSt}

theorem goes_prepare (hT : TidyViews sepDS fmt V passes) {p : RunPass} (hp : p ∈ passes)
    (hd : Defined G.final) (hfin : G.final.images.at c.image c.layer c.level ≠ none) {en : Nat → Bool} {index : Nat}
    (hr : Reads p index c) {r r' : Rec} (e : prepare ⟨sepDS, en⟩ G p index r = some r') : Goes c r r' := by
  have hv : ∀ a ∈ p.images, ∀ v ∈ a.img.views, v.viewType ≠ .d3 :=
    fun a ha v hv => hT.tidy.view _ (hT.attached v ⟨p, hp, a, ha, hv⟩).1
  exact goes_of (L := fun _ => False) (fun hf => steady_prepare hv (hT.layouts p hp) hf e) id
    fun _ _ hc => calm_prepare hd hfin hv hr hc e

theorem goes_into (hT : TidyViews sepDS fmt V passes) (cached : Nat → Option RPass.PassObj) {p : RunPass} (hp : p ∈ passes)
    (hk : Lib.Kind sepDS G V passes cached p)
    (hd : Defined G.final) (hfin : G.final.images.at c.image c.layer c.level ≠ none) {index : Nat} {en : Nat → Bool}
    (hmade : ∀ o, cached index = some o → RPass.MadeFor sepDS p index o)
    (hL : Leaves sepDS G V passes en index cached p c) {f f' : Frame}
    (hann : ∀ r, en p.id = true → prepare ⟨sepDS, en⟩ G p index f.recd = some r →
      (∃ ty output, Lib.MakesMipmaps sepDS G p ty output) → Lib.Announces sepDS G p index r)
    (hready : ∀ r, en p.id = true → prepare ⟨sepDS, en⟩ G p index f.recd = some r → Named p index c → Tracked c r)
    (e : recordInto ⟨sepDS, en⟩ G p index f = some f') : Goes c f.recd f'.recd := by
  have hreg : ∀ r, Goes c r (registerAll p r) := fun r =>
    goes_of (L := fun _ => False)
      (fun _ => steady_registerAll (fun va hva w hw => hT.tidy.view _ (touched_in (hT.actions p hp va hva).2.1 w hw)) r) id
      fun _ _ _ => calm_registerAll hL.substitutes r
  unfold recordInto at e
  split at e
  · rename_i hen
    split at e
    · simp only at e
      have hr : (if (!f.initialised p.id index) = true then f.initialise p index else f).recd = f.recd := by
        split <;> rfl
      rw [hr] at e
      cases e1 : prepare ⟨sepDS, en⟩ G p index f.recd with
      | none => rw [e1] at e; simp at e
      | some r =>
        rw [e1] at e
        simp only [Option.some.injEq] at e
        subst e
        refine goes_trans (goes_prepare hT hp hd hfin (hL.reads hen) e1) (goes_trans ?_ (hreg _))
        exact goes_of (L := MayLose en [p]) (fun hf => steady_kind hT cached hp hk hmade (hann r hen e1) hf hen) hL.draws
          fun _ ht hc => calm_kind hT cached hp hd hfin hmade hen hL (fun h => ht (hready r hen e1 h)) hc
    · simp at e
  · simp only [Option.some.injEq] at e
    subst e
    exact hreg _

theorem goes_announce (env : Env) (p : RunPass) (next : List RunPass) (r : Rec) :
    Goes c r { r with ctx := announce env G p next r.ctx } :=
  goes_of (L := fun _ => False) (fun _ => steady_ctx _ _ (announce_keeps env G p next _).1 (announce_keeps env G p next _).2) id
    fun _ _ _ => calm_ctx _ _ (announce_keeps env G p next _).2

theorem goes_loop (hT : TidyViews sepDS fmt V passes) (cached : Nat → Nat → Option RPass.PassObj)
    (hd : Defined G.final) (hfin : G.final.images.at c.image c.layer c.level ≠ none) (en : Nat → Bool) (index : Nat → Nat) :
    ∀ (ps : List RunPass), (∀ p ∈ ps, p ∈ passes ∧ Lib.Kind sepDS G V passes (cached p.id) p
      ∧ ∀ o, cached p.id (index p.id) = some o → RPass.MadeFor sepDS p (index p.id) o) → ∀ (f : Frame),
    (∀ p r, Enters ⟨sepDS, en⟩ G index ps f p r →
      ((∃ ty output, Lib.MakesMipmaps sepDS G p ty output) → Lib.Announces sepDS G p (index p.id) r)
      ∧ (Named p (index p.id) c → Tracked c r)) →
    (∀ f', recordLoop ⟨sepDS, en⟩ G index ps f = some f' →
      (∀ p ∈ ps, Leaves sepDS G V passes en (index p.id) (cached p.id) p c) → Goes c f.recd f'.recd)
    ∧ ∀ k p r, ps[k]? = some p → RPass.enteredRec ⟨sepDS, en⟩ G index ps f k = some r →
      (∀ q ∈ ps.take k, Leaves sepDS G V passes en (index q.id) (cached q.id) q c) → Reads p (index p.id) c →
      Goes c f.recd r := by
  intro ps
  induction ps with
  | nil =>
    intro _ f _
    refine ⟨?_, fun k p r h => by simp at h⟩
    intro f' e _
    simp only [recordLoop, Option.some.injEq] at e
    subst e
    exact fun h => ⟨none_refl _, h⟩
  | cons p next ih =>
    intro hps f hE
    obtain ⟨hp, hk, hm⟩ := hps p (by simp)
    have s0 := goes_announce (c := c) (G := G) ⟨sepDS, en⟩ p next f.recd
    have step : Leaves sepDS G V passes en (index p.id) (cached p.id) p c → ∀ f1,
        recordInto ⟨sepDS, en⟩ G p (index p.id)
          { f with recd := { f.recd with ctx := announce ⟨sepDS, en⟩ G p next f.recd.ctx } } = some f1 →
        Goes c f.recd f1.recd := fun hL f1 e1 =>
      goes_trans s0 (goes_into (f := { f with recd := _ }) hT (cached p.id) hp hk hd hfin hm hL
        (fun r hen er => (hE p r (Or.inl ⟨rfl, hen, er⟩)).1) (fun r hen er => (hE p r (Or.inl ⟨rfl, hen, er⟩)).2) e1)
    refine ⟨?_, ?_⟩
    · intro f' e hL
      unfold recordLoop at e
      simp only at e
      split at e
      · simp at e
      · rename_i f1 e1
        exact goes_trans (step (hL p (by simp)) f1 e1)
          ((ih (fun q hq => hps q (by simp [hq])) f1 (fun q r he => hE q r (Or.inr ⟨f1, e1, he⟩))).1 f' e
            fun q hq => hL q (by simp [hq]))
    · intro k q r hq he hL hr
      unfold RPass.enteredRec at he
      simp only at he
      cases k with
      | zero =>
        simp only [List.getElem?_cons_zero, Option.some.injEq] at hq
        subst hq
        simp only at he
        split at he
        · exact goes_trans s0 (goes_prepare hT hp hd hfin hr he)
        · simp at he
      | succ k =>
        simp only at he
        cases e1 : recordInto ⟨sepDS, en⟩ G p (index p.id)
          { f with recd := { f.recd with ctx := announce ⟨sepDS, en⟩ G p next f.recd.ctx } } with
        | none => rw [e1] at he; simp at he
        | some f1 =>
          rw [e1, Option.bind_some] at he
          exact goes_trans (step (hL p (by simp)) f1 e1)
            ((ih (fun q hq => hps q (by simp [hq])) f1 (fun q r he => hE q r (Or.inr ⟨f1, e1, he⟩))).2 k q r
              (by simpa using hq) he (fun q hq => hL q (by simp [hq])) hr)

theorem safe_start {deps : List Ctx} (hd : Defined (startCtx deps)) (ini : Nat → Nat → Bool) (log : List Event) :
    Safe c (frameStart sepDS deps passes ini log).recd := by
  have hk := firstAnnounce_keeps sepDS passes (startCtx deps)
  have hi : (frameStart sepDS deps passes ini log).recd.ctx.implicit = [] := by
    rw [show (frameStart sepDS deps passes ini log).recd.ctx.implicit = (firstAnnounce sepDS passes (startCtx deps)).implicit from rfl,
      hk.2, startCtx_implicit]
  refine ⟨start_defined hd ini log, ?_, Or.inr ?_⟩
  · intro t ht
    rw [hi] at ht
    simp at ht
  · intro t ht
    rw [hi] at ht
    simp at ht

theorem named_tracked {cached : Nat → Nat → Option RPass.PassObj} {en : Nat → Bool} {index : Nat → Nat} {deps : List Ctx}
    {ini : Nat → Nat → Bool} {log : List Event}
    (hO : Ordinary sepDS fmt V G en index passes (frameStart sepDS deps passes ini log) cached)
    (hH : Honest fmt V g0 (startCtx deps) G)
    (hwell : Lib.EntersWell sepDS G en index passes (frameStart sepDS deps passes ini log) cached) {p : RunPass} {r : Rec}
    (he : Enters ⟨sepDS, en⟩ G index passes (frameStart sepDS deps passes ini log) p r) (h : Named p (index p.id) c) :
    Tracked c r := by
  obtain ⟨a, ha, hm, v, hv, hc⟩ := h
  have hr := (ready_of_bodies hO.tidy en index deps hH ini log
    (Lib.bodies_keep hO.tidy cached hO.kind en index deps hH ini log hO.made hwell) p r he).2
  have ht := (hr a ha hm v hv).2 c.layer c.level hc.2
  unfold Tracked
  rw [hc.1]
  exact ht

/-- Every enabled pass of a recording is entered. -/
theorem entered_exists {env : Env} {index : Nat → Nat} : ∀ (ps : List RunPass) (f f' : Frame),
    recordLoop env G index ps f = some f' → ∀ p ∈ ps, env.enabled p.id = true →
    ∃ k r, ps[k]? = some p ∧ RPass.enteredRec env G index ps f k = some r
  | [], _, _, _, p, hp, _ => by simp at hp
  | q :: next, f, f', e, p, hp, hen => by
    unfold recordLoop at e
    simp only at e
    split at e
    · simp at e
    · rename_i f1 e1
      by_cases h : p = q
      · subst h
        refine ⟨0, ?_⟩
        have e2 := e1
        unfold recordInto at e2
        rw [if_pos hen] at e2
        split at e2
        · simp only at e2
          split at e2
          · simp at e2
          · rename_i r er
            refine ⟨r, rfl, ?_⟩
            unfold RPass.enteredRec
            simp only [hen, if_true]
            rw [← er]
            congr 1
            split <;> rfl
        · simp at e2
      · obtain ⟨k, r, h1, h2⟩ := entered_exists next f1 f' e p ((List.mem_cons.1 hp).resolve_left h) hen
        refine ⟨k + 1, r, by simpa using h1, ?_⟩
        unfold RPass.enteredRec
        simp only [e1, Option.bind_some]
        exact h2

/-! ### C91 -/

/-- C91, how images come to be remembered (partial: tidy views). After an execution with an enabled pass that has the image as
an attachment it moves (sampled, storage, transfer, implicit), the graph knows the layout of the image. -/
theorem used_remembered_partial {cached : Nat → Nat → Option RPass.PassObj} {en : Nat → Bool} {index : Nat → Nat} {deps : List Ctx}
    {ini : Nat → Nat → Bool} {log : List Event}
    (hO : Ordinary sepDS fmt V G en index passes (frameStart sepDS deps passes ini log) cached)
    (hd : Defined (startCtx deps)) (hH : Honest fmt V g0 (startCtx deps) G)
    (hwell : Lib.EntersWell sepDS G en index passes (frameStart sepDS deps passes ini log) cached)
    {G' : GraphSt} {f : Frame} (e : record ⟨sepDS, en⟩ G deps index passes ini log = some (G', f))
    {p : RunPass} (hp : p ∈ passes) (hen : en p.id = true) (hn : Named p (index p.id) c) :
    G'.final.images.at c.image c.layer c.level ≠ none := by
  obtain ⟨e1, -, sp⟩ := steady_record hO e
  have el : ∃ f', recordLoop ⟨sepDS, en⟩ G index passes (frameStart sepDS deps passes ini log) = some f' := by
    unfold record at e
    simp only at e
    split at e
    · simp at e
    · rename_i f1 e2
      exact ⟨f1, e2⟩
  obtain ⟨f', el⟩ := el
  obtain ⟨k, r, hk, he⟩ := entered_exists passes _ f' el p hp hen
  obtain ⟨q, hq, hE, t1, t2, t3⟩ := sp k r he
  rw [hk] at hq
  cases hq
  obtain ⟨d1, -, -⟩ := t1.1 (start_defined hd ini log)
  obtain ⟨d2, m2, -⟩ := t2.1 d1
  rw [e1]
  exact fun h => named_tracked hO hH hwell hE hn (m2 _ _ _ ((t3.1 d2).2.1 _ _ _ h))

/-- The same for what a pass draws. -/
theorem drawn_remembered_partial {cached : Nat → Nat → Option RPass.PassObj} {en : Nat → Bool} {index : Nat → Nat} {deps : List Ctx}
    {ini : Nat → Nat → Bool} {log : List Event}
    (hO : Ordinary sepDS fmt V G en index passes (frameStart sepDS deps passes ini log) cached)
    (hd : Defined (startCtx deps)) {G' : GraphSt} {f : Frame}
    (e : record ⟨sepDS, en⟩ G deps index passes ini log = some (G', f))
    {k : Nat} {p : RunPass} (hk : passes[k]? = some p) {r : Rec}
    (he : RPass.enteredRec ⟨sepDS, en⟩ G index passes (frameStart sepDS deps passes ini log) k = some r)
    (hD : RPass.Declares sepDS p) {w h : Nat} {draw : List Nat} {o : RPass.PassObj}
    (hb : RPass.recordPass sepDS G w h p (cached p.id (index p.id)) draw (index p.id) r = some (o, p.body (index p.id) r))
    {a : Attachment} (ha : a ∈ p.images) (ht : RPass.isTarget a = true) {v : View} (hv : a.img.view (index p.id) = some v)
    (hc : c.InView v) : G'.final.images.at c.image c.layer c.level ≠ none := by
  obtain ⟨e1, -, sp⟩ := steady_record hO e
  obtain ⟨q, hq, hE, t1, t2, t3⟩ := sp k r he
  rw [hk] at hq
  cases hq
  obtain ⟨d1, -, -⟩ := t1.1 (start_defined hd ini log)
  obtain ⟨d2, -, -⟩ := t2.1 d1
  have htr := (steady_draws hO.tidy (List.mem_of_getElem? hk) hD (hO.made p (List.mem_of_getElem? hk)) hb (enters_enabled hE)).2
    a ha ht v hv c.layer c.level hc.2
  rw [← hc.1] at htr
  rw [e1]
  exact fun h => htr ((t3.1 d2).2.1 _ _ _ h)

/-- C91, no command discards (partial: tidy views, and passes that leave the byte alone). If the graph knows, from the previous
execution, the layout of an image: nothing recorded before the body of a pass whose attachments over the image are inputs
discards it, if the passes before leave it alone; and nothing in the whole execution, if all passes do. -/
theorem remembered_never_discarded_partial {cached : Nat → Nat → Option RPass.PassObj} {en : Nat → Bool} {index : Nat → Nat}
    {deps : List Ctx} {ini : Nat → Nat → Bool} {log : List Event}
    (hO : Ordinary sepDS fmt V G en index passes (frameStart sepDS deps passes ini log) cached)
    (hd : Defined (startCtx deps)) (hH : Honest fmt V g0 (startCtx deps) G)
    (hwell : Lib.EntersWell sepDS G en index passes (frameStart sepDS deps passes ini log) cached)
    (hdf : Defined G.final) (hfin : G.final.images.at c.image c.layer c.level ≠ none)
    {G' : GraphSt} {f : Frame} (e : record ⟨sepDS, en⟩ G deps index passes ini log = some (G', f)) :
    ((∀ p ∈ passes, Leaves sepDS G V passes en (index p.id) (cached p.id) p c) → ∀ k ∈ f.recd.cmds, ¬ Discards k c)
    ∧ ∀ k p r, passes[k]? = some p →
      RPass.enteredRec ⟨sepDS, en⟩ G index passes (frameStart sepDS deps passes ini log) k = some r →
      (∀ q ∈ passes.take k, Leaves sepDS G V passes en (index q.id) (cached q.id) q c) → Reads p (index p.id) c →
      ∀ x ∈ r.cmds, ¬ Discards x c := by
  have key := goes_loop hO.tidy cached hdf hfin en index passes (fun p hp => ⟨hp, hO.kind p hp, hO.made p hp⟩)
    (frameStart sepDS deps passes ini log) (fun p r he => ⟨hO.announced p r he, named_tracked hO hH hwell he⟩)
  have hs : Safe c (frameStart sepDS deps passes ini log).recd := safe_start hd ini log
  have hcmd : ∀ {r : Rec}, NoneDiscards c (frameStart sepDS deps passes ini log).recd r → ∀ x ∈ r.cmds, ¬ Discards x c := by
    rintro r ⟨cs, e1, h⟩ x hx
    rw [e1] at hx
    exact h x (by simpa [frameStart] using hx)
  refine ⟨fun hL => ?_, fun k p r hk he hL hr => hcmd (key.2 k p r hk he hL hr hs).1⟩
  unfold record at e
  simp only at e
  split at e
  · simp at e
  · rename_i f1 e1
    simp only [Option.some.injEq, Prod.mk.injEq] at e
    obtain ⟨rfl, rfl⟩ := e
    exact hcmd (key.1 _ e1 hL hs).1

/-- C91 (partial: tidy views, passes of the library's kinds). An execution follows another one, in which an enabled pass had an
image as an attachment it moves. In the second one, the first passes leave the image alone, then a pass has it as input. What
the image holds when the second execution starts — whatever the first one left there — is still there when the body of this
pass starts, and afterwards, until a command writes it, unless an enabled pass draws to it without loading and storing it. -/
theorem history_kept_partial {passes' : List RunPass} {cached cached' : Nat → Nat → Option RPass.PassObj} {en en' : Nat → Bool}
    {index index' : Nat → Nat} {ini ini' : Nat → Nat → Bool} {log log' : List Event}
    -- the first execution
    (hO : Ordinary sepDS fmt V G en index passes (frameStart sepDS [] passes ini log) cached)
    (hH : Honest fmt V g0 (startCtx []) G)
    (hwell : Lib.EntersWell sepDS G en index passes (frameStart sepDS [] passes ini log) cached)
    {G' : GraphSt} {f : Frame} (e : record ⟨sepDS, en⟩ G [] index passes ini log = some (G', f))
    {q : RunPass} (hq : q ∈ passes) (henq : en q.id = true) (hnq : Named q (index q.id) c)
    -- the second execution
    {g1 : Layouts} (hg : Restored G' (execAll g0 f.recd.cmds) g1)
    (hO' : Ordinary sepDS fmt V G' en' index' passes' (frameStart sepDS [] passes' ini' log') cached')
    (hwell' : Lib.EntersWell sepDS G' en' index' passes' (frameStart sepDS [] passes' ini' log') cached')
    {G'' : GraphSt} {f' : Frame} (e' : record ⟨sepDS, en'⟩ G' [] index' passes' ini' log' = some (G'', f'))
    {k : Nat} {p : RunPass} (hk : passes'[k]? = some p) {r : Rec}
    (he : RPass.enteredRec ⟨sepDS, en'⟩ G' index' passes' (frameStart sepDS [] passes' ini' log') k = some r)
    (hL : ∀ q ∈ passes'.take k, Leaves sepDS G' V passes' en' (index' q.id) (cached' q.id) q c)
    (hr : Reads p (index' p.id) c) (hn : Named p (index' p.id) c)
    (dev : Device) (M : Memory) (cs ds : List Cmd) (hcs : f'.recd.cmds = r.cmds ++ cs ++ ds)
    (hlose : cs ≠ [] → ¬ MayLose en' (passes'.drop k) c)
    (hw : ∀ x ∈ r.cmds ++ cs, ¬ Writes dev x c) : (steps dev M (r.cmds ++ cs)).image c = M.image c := by
  have hfin := used_remembered_partial hO empty_defined hH hwell e hq henq hnq
  obtain ⟨-, hdf, -⟩ := tracked_never_discarded_partial hO empty_defined e
  obtain ⟨-, v2, v3, v4⟩ := valid_of_bodies hO.tidy en index [] hH ini log
    (Lib.bodies_keep hO.tidy cached hO.kind en index [] hH ini log hO.made hwell) G' f e
  have hH' : Honest fmt V g1 (startCtx []) G' := honest_restored (by rw [v4]; exact hH.inputs) v3 v2 hg
  have h1 := (remembered_never_discarded_partial hO' empty_defined hH' hwell' hdf hfin e').2 k p r hk he hL hr
  obtain ⟨xs, hx, hx'⟩ := ((tracked_never_discarded_partial hO' empty_defined e').2.2 k p r hk he).1
  obtain ⟨p', hp', hE, -⟩ := (steady_record hO' e').2.2 k r he
  rw [hk] at hp'
  cases hp'
  have htr := named_tracked hO' hH' hwell' hE hn
  refine steps_keep _ (fun x hxm => ⟨?_, hw x hxm⟩) M
  rcases List.mem_append.1 hxm with hxm | hxm
  · exact h1 x hxm
  · intro hdx
    rw [hcs, List.append_assoc] at hx
    have h2 := List.append_cancel_left hx
    exact hlose (fun h => by rw [h] at hxm; simp at hxm) (hx' x (by rw [← h2]; exact List.mem_append_left _ hxm) c htr hdx).2

/-- Any number of executions, in which all passes leave the byte alone and the graph goes on knowing the image's layout (see
`used_remembered_partial`, `drawn_remembered_partial`). `cs` are the commands of all of them. -/
inductive LeftAlone (sepDS : Bool) (fmt : Nat → Nat) (V : View → Prop) (c : Cell) : GraphSt → Layouts → List Cmd → Prop
  | done (G g) : LeftAlone sepDS fmt V c G g []
  | step {G g g' passes cached en index ini log G' f cs} (hg : Restored G g g')
      (hO : Ordinary sepDS fmt V G en index passes (frameStart sepDS [] passes ini log) cached)
      (hwell : Lib.EntersWell sepDS G en index passes (frameStart sepDS [] passes ini log) cached)
      (e : record ⟨sepDS, en⟩ G [] index passes ini log = some (G', f))
      (hL : ∀ p ∈ passes, Leaves sepDS G V passes en (index p.id) (cached p.id) p c)
      (known : G'.final.images.at c.image c.layer c.level ≠ none)
      (rest : LeftAlone sepDS fmt V c G' (execAll g' f.recd.cmds) cs) : LeftAlone sepDS fmt V c G g (f.recd.cmds ++ cs)

/-- C91 over any number of executions (partial: tidy views, passes of the library's kinds). What a graph knows the layout of
stays there as long as every execution knows it and leaves it alone, until a command writes it. -/
theorem history_kept_for_ever_partial {cs : List Cmd} {g : Layouts} (h : LeftAlone sepDS fmt V c G g cs)
    (hdf : Defined G.final) (hfin : G.final.images.at c.image c.layer c.level ≠ none)
    (hin : ∀ v, V v → Whole G.inputs v) (hwh : ∀ v, V v → Whole G.final.images v)
    (htrue : ∀ i a l m s, HasAspect (fmt i) a → G.final.images.at i l m = some s → g i a l m = s.layout)
    (dev : Device) (M : Memory) (hw : ∀ x ∈ cs, ¬ Writes dev x c) : (steps dev M cs).image c = M.image c := by
  have key : ∀ x ∈ cs, ¬ Discards x c := by
    clear hw
    induction h with
    | done => simp
    | step hg hO hwell e hL known rest ih =>
      rename_i G g g' passes cached en index ini log G' f cs
      have hH := honest_restored (fmt := fmt) hin hwh htrue hg
      obtain ⟨-, hdf', -⟩ := tracked_never_discarded_partial hO empty_defined e
      obtain ⟨-, v2, v3, v4⟩ := valid_of_bodies hO.tidy en index [] hH ini log
        (Lib.bodies_keep hO.tidy cached hO.kind en index [] hH ini log hO.made hwell) G' f e
      intro x hx
      rcases List.mem_append.1 hx with hx | hx
      · exact (remembered_never_discarded_partial hO empty_defined hH hwell hdf hfin e).1 hL x hx
      · exact ih hdf' known (by rw [v4]; exact hin) v3 v2 x hx
  exact steps_keep _ (fun x hx => ⟨key x hx, hw x hx⟩) M

end Verif.Run

namespace Verif.Run
open Verif.Rec Verif.Att Verif.Gpu

/-! ### The hypotheses are met -/

/-- A pass sampling an image, before a pass writing it: each execution samples what the previous one wrote. -/
def hRead : RunPass :=
  ⟨1, 1, false, ⟨Access.shaderRead, Stage.fragmentShader⟩, [ImageAdder.sampled.attach 1 0 [xView]], [], [], fun _ r => r.emit (.work 1)⟩
def hWrite : RunPass :=
  ⟨2, 1, true, ⟨Access.shaderRead, Stage.computeShader⟩, [ImageAdder.outputStorage.attach 2 0 [xView]], [], [], fun _ r => r.emit (.work 2)⟩
def hPasses : List RunPass := [hRead, hWrite]
def hCell : Cell := ⟨1, 0, 0, 0, 5, 5, 0, 1⟩

theorem hPasses_tidy : TidyViews false (fun _ => 37) xV hPasses := by
  have hatt : ∀ x, AttachedTo hPasses x → x = xView := by
    rintro x ⟨p, hp, a, ha, hx⟩
    simp only [hPasses, List.mem_cons, List.not_mem_nil, or_false] at hp
    rcases hp with rfl | rfl <;>
      (simp only [hRead, hWrite, List.mem_cons, List.not_mem_nil, or_false] at ha
       subst ha
       simpa [ImageAdder.attach, mkImage] using hx)
  refine ⟨⟨?_, ?_, ?_, ?_⟩, ?_, ?_, ?_, ?_, ?_⟩
  · rintro v rfl; rfl
  · rintro v rfl; decide
  · rintro v rfl; decide
  · rintro v w rfl rfl; exact Or.inr ⟨rfl, fun _ _ => Iff.rfl⟩
  · rintro u v rfl rfl _; rfl
  · intro x hx
    rw [hatt x hx]
    exact ⟨rfl, by decide⟩
  · intro p hp a ha _
    simp only [hPasses, List.mem_cons, List.not_mem_nil, or_false] at hp
    rcases hp with rfl | rfl <;>
      (simp only [hRead, hWrite, List.mem_cons, List.not_mem_nil, or_false] at ha
       subst ha
       decide)
  · intro p hp index
    simp only [hPasses, List.mem_cons, List.not_mem_nil, or_false] at hp
    rcases hp with rfl | rfl <;> simp [hRead, hWrite]
  · intro p hp va hva
    simp only [hPasses, List.mem_cons, List.not_mem_nil, or_false] at hp
    rcases hp with rfl | rfl <;> simp [hRead, hWrite] at hva

theorem hPasses_kinds (G : GraphSt) (V : View → Prop) : ∀ p ∈ hPasses, Lib.Kind false G V hPasses (fun _ => none) p := by
  intro p hp
  simp only [hPasses, List.mem_cons, List.not_mem_nil, or_false] at hp
  rcases hp with rfl | rfl
  · exact .uses fun _ r => ⟨[.work 1], by simp [BodyCall], rfl⟩
  · exact .uses fun _ r => ⟨[.work 2], by simp [BodyCall], rfl⟩

theorem hPasses_single {G : GraphSt} {p : RunPass} (hp : p ∈ hPasses) :
    (¬ ∃ ty output, Lib.MakesMipmaps false G p ty output) ∧ ∀ a ∈ p.images, RPass.isTarget a = false := by
  simp only [hPasses, List.mem_cons, List.not_mem_nil, or_false] at hp
  refine ⟨?_, ?_⟩
  · rintro ⟨ty, output, hM⟩
    rcases hp with rfl | rfl <;>
      exact absurd ((hM.declared _ rfl).2 xView (by simp [ImageAdder.attach, mkImage])).2.2 (by decide)
  · intro a ha
    rcases hp with rfl | rfl <;>
      (simp only [hRead, hWrite, List.mem_cons, List.not_mem_nil, or_false] at ha
       subst ha
       rfl)

theorem hPasses_ordinary (G : GraphSt) (f : Frame) :
    Ordinary false (fun _ => 37) xV G (fun _ => true) (fun _ => 0) hPasses f (fun _ _ => none) :=
  ⟨hPasses_tidy, hPasses_kinds G xV, fun _ _ _ h => by simp at h, fun _ _ he h => absurd h (hPasses_single (enters_mem he)).1⟩

theorem hPasses_well (G : GraphSt) (f : Frame) : Lib.EntersWell false G (fun _ => true) (fun _ => 0) hPasses f (fun _ _ => none) := by
  intro p r he
  refine ⟨fun _ => ⟨fun _ h => by simp at h, ?_⟩, fun h => absurd h (hPasses_single (enters_mem he)).1⟩
  intro a ha ht
  rw [(hPasses_single (G := G) (enters_mem he)).2 a ha] at ht
  simp at ht

/-- What the second pass writes in an execution is what the first one samples in the next. -/
theorem example_history : ∃ G' f G'' f',
    record ⟨false, fun _ => true⟩ xG [] (fun _ => 0) hPasses (fun _ _ => false) [] = some (G', f)
    ∧ record ⟨false, fun _ => true⟩ G' [] (fun _ => 0) hPasses f.initialised f.log = some (G'', f')
    ∧ f'.recd.cmds[1]? = some (.work 1)
    ∧ ∀ dev M, (steps dev M (f'.recd.cmds.take 1)).image hCell = M.image hCell := by
  have h : ((record ⟨false, fun _ => true⟩ xG [] (fun _ => 0) hPasses (fun _ _ => false) []).bind fun x =>
      (record ⟨false, fun _ => true⟩ x.1 [] (fun _ => 0) hPasses x.2.initialised x.2.log).bind fun y =>
      (RPass.enteredRec ⟨false, fun _ => true⟩ x.1 (fun _ => 0) hPasses
        (frameStart false [] hPasses x.2.initialised x.2.log) 0).map fun r => (y.2.recd.cmds, r.cmds))
      = some ([.imageBarrier 1 RPass.rng1 ⟨0, 8192⟩ ⟨32, 128⟩ 1 5, .work 1,
          .imageBarrier 1 RPass.rng1 ⟨32, 128⟩ ⟨0, 8192⟩ 5 1, .work 2],
        [.imageBarrier 1 RPass.rng1 ⟨0, 8192⟩ ⟨32, 128⟩ 1 5]) := by decide
  obtain ⟨⟨G', f⟩, e, h⟩ := Option.bind_eq_some_iff.1 h
  obtain ⟨⟨G'', f'⟩, e', h⟩ := Option.bind_eq_some_iff.1 h
  obtain ⟨r, er, h⟩ := Option.map_eq_some_iff.1 h
  simp only [Prod.mk.injEq] at h e' er
  obtain ⟨h1, h2⟩ := h
  refine ⟨G', f, G'', f', e, e', by rw [h1]; rfl, fun dev M => ?_⟩
  have hn : ∀ p ∈ hPasses, Named p 0 hCell := by
    intro p hp
    simp only [hPasses, List.mem_cons, List.not_mem_nil, or_false] at hp
    rcases hp with rfl | rfl
    · exact ⟨_, List.mem_singleton.2 rfl, by decide, xView, rfl, rfl, by decide⟩
    · exact ⟨_, List.mem_singleton.2 rfl, by decide, xView, rfl, rfl, by decide⟩
  have key := history_kept_partial (c := hCell) (hPasses_ordinary xG _) example_honest (hPasses_well xG _) e (q := hWrite)
    (by simp [hPasses]) rfl (hn _ (by simp [hPasses])) (g1 := execAll (fun _ _ _ _ => 0) f.recd.cmds)
    (by
      intro i a l m
      have : G'.inputs = LayoutMap.empty := by
        unfold record at e
        simp only at e
        split at e
        · simp at e
        · simp only [Option.some.injEq, Prod.mk.injEq] at e
          rw [← e.1]
          rfl
      rw [this]
      rfl)
    (hPasses_ordinary G' _) (hPasses_well G' _) e' (k := 0) (p := hRead) rfl er (by simp)
    (by
      intro a ha _ _ _ _
      simp only [hRead, List.mem_cons, List.not_mem_nil, or_false] at ha
      subst ha
      rfl)
    (hn _ (by simp [hPasses])) dev M [] (f'.recd.cmds.drop 1) (by rw [h1, h2]; rfl) (fun h => absurd rfl h)
    (by
      rw [h2]
      intro x hx
      simp only [List.append_nil, List.mem_singleton] at hx
      subst hx
      exact fun h => h)
  rw [h2] at key
  rw [h1]
  exact key

/-! ### Where it fails -/

/-- The object the holder of a pass that accumulates makes in the first execution. -/
def hObject : RPass.PassObj where
  descs := [⟨37, 1, 0, 2, 1, 0, 2⟩]
  colours := [⟨0, 2⟩]
  entries := [⟨xView, ⟨0, ⟨0, 8192⟩⟩, ⟨2, ⟨384, 1024⟩⟩⟩]
  clears := [0]
  blends := [0]
  deps := [⟨true, 8192, 1024, 0, 384⟩, ⟨false, 1024, 1024, 384, 384⟩]
  prev := ⟨0, 8192⟩
  next := ⟨384, 1024⟩
  views := [xView]
  width := 64
  height := 64
  layers := 1

/-- C91 is false for a pass that draws over what the previous execution drew (a colour target declared as read and written,
loaded and stored): its render pass is made in the first execution, when nothing is known of the target, and used again in
every later one, whatever the graph knows by then. It starts from UNDEFINED and clears the target. -/
theorem accumulated_target_always_discarded :
    RPass.objectIn xG (RPass.cPasses xG none) (fun _ => true) 0 RPass.aBlend none = some hObject
    ∧ ∀ (G : GraphSt) ini log, ∃ G' f, record ⟨false, fun _ => true⟩ G [] (fun _ => 0) (RPass.cPasses G (some hObject)) ini log
        = some (G', f)
      ∧ f.recd.cmds = [.beginPass [RPass.att0] 64 64 1, .user 2, .endPass [RPass.att0]]
      ∧ Discards (.beginPass [RPass.att0] 64 64 1) hCell
      ∧ G'.final.images.at 1 0 0 ≠ none := by
  refine ⟨by decide, fun G ini log => ?_⟩
  cases hi : ini 2 0 <;>
    exact ⟨_, _, by simp only [record, recordLoop, RPass.cPasses, recordInto, RPass.RunPass.drawing, RPass.aBlend, RPass.drawPass, hi]; rfl,
      rfl, by decide, by intro h; cases h⟩

end Verif.Run
