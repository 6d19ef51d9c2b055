import Verif.Spec.BufferHazards
import Verif.Props.Hazards
/-
C98: uses of a buffer wait for each other.
-/
namespace Verif.BHaz
open Verif.Rec Verif.Att Verif.Run Verif.Gpu Verif.Haz

/-! ### The state barriers leave the buffer in -/

/-- The state the buffer is in after the command. -/
def next (b : Nat) (s : AccessState) : Cmd → AccessState
  | .bufferBarrier b' _ _ _ dst => if b' = b then dst else s
  | _ => s

/-- The state the buffer is in after the commands. -/
def bstate (b : Nat) (c0 : AccessState) (cs : List Cmd) : AccessState := cs.foldl (next b) c0

/-- What is known of a command recorded when the buffer is in state `s`. -/
def Fine (b y : Nat) (s : AccessState) (k : Cmd) : Prop :=
  (∀ o n src dst, k = .bufferBarrier b o n src dst →
    (src = s ∨ s.stage = Stage.bottomOfPipe) ∧ HasStage dst ∧ Holds o n y)
  ∧ ∀ w, Does b w k → s = scope w

/-- Every command was recorded in such a state. -/
def Along (b y : Nat) (c0 : AccessState) (cs : List Cmd) : Prop :=
  ∀ pre k post, cs = pre ++ k :: post → Fine b y (bstate b c0 pre) k

variable {b y : Nat} {c0 : AccessState} {z0 : List Cmd}

theorem bstate_append (xs ys : List Cmd) : bstate b c0 (xs ++ ys) = bstate b (bstate b c0 xs) ys := List.foldl_append

theorem along_nil : Along b y c0 [] := fun pre k post h => by simp at h

theorem along_snoc {cs : List Cmd} {k : Cmd} (h : Along b y c0 cs) (hk : Fine b y (bstate b c0 cs) k) :
    Along b y c0 (cs ++ [k]) := by
  intro pre x post e
  rcases List.eq_nil_or_concat post with rfl | ⟨post', z, rfl⟩
  · have := List.append_inj' e rfl
    obtain ⟨rfl, h2⟩ := this
    cases h2
    exact hk
  · rw [List.concat_eq_append] at e
    have e' : cs ++ [k] = (pre ++ x :: post') ++ [z] := by simpa using e
    exact h pre x post' (List.append_inj' e' rfl).1

/-- What is kept true of a recording. -/
structure Kept (b y : Nat) (c0 : AccessState) (z0 : List Cmd) (r : Rec) : Prop where
  grows : z0 <+: r.cmds
  link : r.ctx.getAccess b = bstate b c0 r.cmds
  along : Along b y c0 r.cmds

/-- The command has nothing to do with the buffer. -/
def Neutral (b : Nat) : Cmd → Prop
  | .bufferBarrier b' _ _ _ _ | .fillBuffer b' _ _ | .copyBufferToImage b' _ _ _ _ _ _ _ _ _ _
  | .copyImageToBuffer _ _ _ _ _ _ _ _ _ b' _ => b' ≠ b
  | .copyBuffer s d _ _ _ => s ≠ b ∧ d ≠ b
  | _ => True

theorem neutral_does {k : Cmd} (h : Neutral b k) (w : Bool) : ¬ Does b w k := by
  intro hd
  cases w <;> cases k <;> first | exact hd | exact h hd | exact h.1 hd | exact h.2 hd

theorem neutral_next {k : Cmd} (h : Neutral b k) (s : AccessState) : next b s k = s := by
  cases k <;> first | rfl | exact if_neg h

theorem neutral_fine {k : Cmd} (h : Neutral b k) (s : AccessState) : Fine b y s k :=
  ⟨fun _ _ _ _ e => by subst e; exact absurd rfl h, fun w hd => absurd hd (neutral_does h w)⟩

theorem neutral_all : ∀ (cs : List Cmd), (∀ k ∈ cs, Neutral b k) → bstate b c0 cs = c0
  | [], _ => rfl
  | k :: cs, h => by
    show bstate b (next b c0 k) cs = c0
    rw [neutral_next (h k (by simp))]
    exact neutral_all cs fun x hx => h x (by simp [hx])

theorem along_neutral : ∀ (q cs : List Cmd), Along b y c0 cs → (∀ k ∈ q, Neutral b k) → Along b y c0 (cs ++ q)
  | [], cs, h, _ => by simpa using h
  | k :: q, cs, h, hq => by
    have := along_neutral q (cs ++ [k]) (along_snoc h (neutral_fine (hq k (by simp)) _)) (fun x hx => hq x (by simp [hx]))
    simpa using this

/-- Between two recordings nothing was done to the buffer. -/
def Quiet (b : Nat) (r r' : Rec) : Prop :=
  r'.ctx.getAccess b = r.ctx.getAccess b ∧ ∃ q, r'.cmds = r.cmds ++ q ∧ ∀ k ∈ q, Neutral b k

theorem quiet_refl (r : Rec) : Quiet b r r := ⟨rfl, [], by simp, by simp⟩

theorem quiet_trans {x y z : Rec} (h : Quiet b x y) (h' : Quiet b y z) : Quiet b x z := by
  obtain ⟨h1, q, h2, h3⟩ := h
  obtain ⟨h4, q', h5, h6⟩ := h'
  refine ⟨h4.trans h1, q ++ q', by rw [h5, h2, List.append_assoc], ?_⟩
  intro k hk
  rcases List.mem_append.1 hk with hk | hk
  · exact h3 k hk
  · exact h6 k hk

theorem quiet_emit (r : Rec) {k : Cmd} (hk : Neutral b k) : Quiet b r (r.emit k) :=
  ⟨rfl, [k], rfl, fun x hx => by rw [List.mem_singleton.1 hx]; exact hk⟩

theorem quiet_ctx (r : Rec) {c : Ctx} (h : c.buffers = r.ctx.buffers) : Quiet b r { r with ctx := c } :=
  ⟨by simp only [Ctx.getAccess, h], [], by simp, by simp⟩

theorem kept_quiet {r r' : Rec} (h : Kept b y c0 z0 r) (q : Quiet b r r') : Kept b y c0 z0 r' := by
  obtain ⟨h1, qs, h2, h3⟩ := q
  refine ⟨by rw [h2]; exact h.grows.trans (List.prefix_append _ _), ?_, ?_⟩
  · rw [h1, h2, bstate_append, neutral_all qs h3]; exact h.link
  · rw [h2]; exact along_neutral qs _ h.along h3

theorem quiet_imageBarrier (env : Env) (r : Rec) (img : Image) (vt : ViewType) (sub : Range) (initial : Nat) (wanted : LayoutState)
    (force : Bool) : Quiet b r (r.imageBarrier env img vt sub initial wanted force) := by
  obtain ⟨src, hs, ⟨-, e⟩ | ⟨-, e⟩⟩ := imageBarrier_cases env r img vt sub initial wanted force <;> rw [e]
  · exact ⟨rfl, [_], rfl, fun x hx => by rw [List.mem_singleton.1 hx]; trivial⟩
  · exact quiet_refl r

theorem quiet_barrier (env : Env) (r : Rec) (v : View) (initial : Nat) (wanted : LayoutState) (force : Bool) :
    Quiet b r (r.viewBarrier env v initial wanted force) := quiet_imageBarrier env r _ _ _ _ _ _

theorem quiet_final (env : Env) (r : Rec) (v : View) (l : Nat) : Quiet b r (r.finalBarrier env v l) := by
  unfold Rec.finalBarrier
  split
  · exact quiet_barrier env r v _ _ _
  · exact quiet_refl r

theorem quiet_runImplicitN (env : Env) : ∀ (n : Nat) (r : Rec) (v : View), Quiet b r (Rec.runImplicitN env n r v)
  | 0, r, v => quiet_refl r
  | n + 1, r, v => by
    unfold Rec.runImplicitN
    split
    · exact quiet_refl r
    · rename_i t ht
      simp only
      have h1 : Quiet b r { r with ctx := { r.ctx with implicit := r.ctx.implicit.eraseP (Implicit.isFor v) } } :=
        quiet_ctx r rfl
      generalize ({ r with ctx := { r.ctx with implicit := r.ctx.implicit.eraseP (Implicit.isFor v) } } : Rec) = r1 at h1
      split
      · exact h1
      · cases hact : t.action with
        | nothing => exact h1
        | user k => exact quiet_trans h1 (quiet_emit _ trivial)
        | copy src dst w hh final =>
          simp only
          unfold Rec.doCopy
          exact quiet_trans h1 (quiet_trans (quiet_runImplicitN env n r1 src) (quiet_trans (quiet_barrier env _ src _ _ _)
            (quiet_trans (quiet_barrier env _ dst _ _ _) (quiet_trans
              (quiet_emit (k := .copyImage _ Layout.transferSrc _ _ Layout.transferDst _ _ _ _) _ trivial) (quiet_final env _ dst final)))))
        | blit src dst sx sy sw sh dx dy dw dh filter final =>
          simp only
          unfold Rec.doBlit
          exact quiet_trans h1 (quiet_trans (quiet_runImplicitN env n r1 src) (quiet_trans (quiet_barrier env _ src _ _ _)
            (quiet_trans (quiet_barrier env _ dst _ _ _) (quiet_trans
              (quiet_emit (k := .blitImage _ Layout.transferSrc _ _ _ Layout.transferDst _ _ _) _ trivial) (quiet_final env _ dst final)))))
        | clear dst value final =>
          simp only
          unfold Rec.doClear
          exact quiet_trans h1 (quiet_trans (quiet_barrier env _ dst _ _ _) (quiet_trans
            (quiet_emit (k := .clearImage _ _ Layout.transferDst _ _) _ trivial) (quiet_final env _ dst final)))

theorem quiet_runImplicit (env : Env) (r : Rec) (v : View) : Quiet b r (r.runImplicit env v) := quiet_runImplicitN env _ r v

theorem quiet_recordImage {env : Env} {G : GraphSt} {index : Nat} {a : Attachment} {r r' : Rec}
    (e : recordImage env G index r a = some r') : Quiet b r r' := by
  unfold recordImage at e
  cases hv : a.img.view index with
  | none => rw [hv] at e; simp at e
  | some v =>
    rw [hv] at e
    simp only at e
    have h1 := quiet_runImplicit (b := b) env r v
    generalize r.runImplicit env v = r1 at h1 e
    split at e
    · have hcur : ∀ cur : LayoutState × Ctx,
          cur = (if (!a.isInput) = true then (makeLayoutState Layout.undefined, r1.ctx) else getCurrentLayoutState G r1.ctx v) →
          Quiet b r1 { r1 with ctx := cur.2 } := by
        rintro cur rfl
        split
        · exact quiet_refl r1
        · exact quiet_ctx r1 (current_buffers _ _ _)
      have h2 := hcur _ rfl
      generalize (if (!a.isInput) = true then (makeLayoutState Layout.undefined, r1.ctx) else getCurrentLayoutState G r1.ctx v)
        = cur at h2 e
      split at e
      · simp only [Option.some.injEq] at e
        subst e
        exact quiet_trans h1 (quiet_trans h2 (quiet_trans (quiet_barrier env _ v _ _ _)
          (quiet_trans (quiet_emit (k := .clearImage _ _ Layout.transferDst _ _) _ trivial) (quiet_barrier env _ v _ _ _))))
      · simp only [Option.some.injEq] at e
        subst e
        exact quiet_trans h1 (quiet_trans h2 (quiet_barrier env _ v _ _ _))
    · simp only [Option.some.injEq] at e
      subst e
      exact h1

theorem quiet_foldOpt {α : Type} {f : Rec → α → Option Rec} : ∀ (as : List α),
    (∀ a ∈ as, ∀ r r', f r a = some r' → Quiet b r r') → ∀ r r', Run.foldOpt f r as = some r' → Quiet b r r'
  | [], _, r, r', e => by
    simp only [Run.foldOpt, Option.some.injEq] at e
    subst e; exact quiet_refl r
  | a :: as, hf, r, r', e => by
    unfold Run.foldOpt at e
    split at e
    · simp at e
    · rename_i r1 e1
      exact quiet_trans (hf a (by simp) r r1 e1) (quiet_foldOpt as (fun a ha => hf a (by simp [ha])) r1 r' e)

theorem quiet_registerAll (p : RunPass) (r : Rec) : Quiet b r (registerAll p r) := by
  unfold registerAll
  generalize p.implicitActions = l
  induction l generalizing r with
  | nil => exact quiet_refl r
  | cons va l ih =>
    exact quiet_trans (quiet_ctx r rfl) (ih (r.register ⟨p.id, va.1, va.2⟩))

/-! ### Barriers on the buffer -/

theorem stage_not_bottom {s : AccessState} (h : HasStage s) : s.stage ≠ Stage.bottomOfPipe := by
  intro e
  have := h.2
  rw [e] at this
  exact absurd this (by decide)

/-- A request for a state of the buffer. -/
theorem kept_bufferBarrier {r : Rec} (h : Kept b y c0 z0 r) (d o n : Nat) (initial w : AccessState) (force : Bool)
    (hw : d = b → HasStage w ∧ Holds o n y) :
    Kept b y c0 z0 (r.bufferBarrier d o n initial w force)
    ∧ ((r.bufferBarrier d o n initial w force).ctx.getAccess d = w ∨ (r.ctx.getAccess d).stage = Stage.bottomOfPipe ∧ initial = w)
    ∧ ∀ d', d' ≠ d → (r.bufferBarrier d o n initial w force).ctx.getAccess d' = r.ctx.getAccess d' := by
  unfold Rec.bufferBarrier
  simp only
  by_cases hc : (force || ((if (r.ctx.getAccess d).stage = Stage.bottomOfPipe then initial else r.ctx.getAccess d).access != w.access
      || (if (r.ctx.getAccess d).stage = Stage.bottomOfPipe then initial else r.ctx.getAccess d).stage != w.stage)) = true
  · rw [if_pos hc]
    refine ⟨?_, Or.inl (by simp [Ctx.getAccess, Ctx.setAccess]), ?_⟩
    · refine ⟨h.grows.trans (List.prefix_append _ _), ?_, ?_⟩
      · show (r.ctx.setAccess d w).getAccess b = bstate b c0 (r.cmds ++ [_])
        rw [bstate_append]
        show _ = if d = b then w else bstate b c0 r.cmds
        by_cases hd : d = b
        · subst hd
          simp [Ctx.getAccess, Ctx.setAccess]
        · rw [if_neg hd, ← h.link]
          simp [Ctx.getAccess, Ctx.setAccess, Ne.symm hd]
      · refine along_snoc h.along ⟨?_, fun w' hd => by cases w' <;> exact absurd hd (fun x => x)⟩
        intro o' n' src dst e
        simp only [Cmd.bufferBarrier.injEq] at e
        obtain ⟨e1, e2, e3, e4, e5⟩ := e
        obtain ⟨h1, h2⟩ := hw e1
        refine ⟨?_, e5 ▸ h1, by rw [← e2, ← e3]; exact h2⟩
        subst e1
        rw [← h.link]
        by_cases hb : (r.ctx.getAccess d).stage = Stage.bottomOfPipe
        · exact Or.inr hb
        · rw [if_neg hb] at e4
          exact Or.inl e4.symm
    · intro d' hd
      simp [Ctx.getAccess, Ctx.setAccess, hd, Rec.emit]
  · rw [if_neg hc]
    refine ⟨h, ?_, fun _ _ => rfl⟩
    have : (if (r.ctx.getAccess d).stage = Stage.bottomOfPipe then initial else r.ctx.getAccess d) = w := by
      generalize (if (r.ctx.getAccess d).stage = Stage.bottomOfPipe then initial else r.ctx.getAccess d) = x at *
      cases x; cases w
      simp at hc
      simp [hc.2]
    by_cases hb : (r.ctx.getAccess d).stage = Stage.bottomOfPipe
    · rw [if_pos hb] at this
      exact Or.inr ⟨hb, this⟩
    · rw [if_neg hb] at this
      exact Or.inl this

theorem kept_emit {r : Rec} (h : Kept b y c0 z0 r) {k : Cmd} (hn : ∀ s, next b s k = s) (hb : ∀ o n src dst, k ≠ .bufferBarrier b o n src dst)
    (hd : ∀ w, Does b w k → r.ctx.getAccess b = scope w) : Kept b y c0 z0 (r.emit k) := by
  refine ⟨h.grows.trans (List.prefix_append _ _), ?_, along_snoc h.along ⟨fun o n src dst e => absurd e (hb o n src dst), fun w hw => by rw [← h.link]; exact hd w hw⟩⟩
  show r.ctx.getAccess b = bstate b c0 (r.cmds ++ [k])
  rw [bstate_append]
  show _ = next b (bstate b c0 r.cmds) k
  rw [hn]
  exact h.link

theorem transferWrite_stage : HasStage (⟨Access.transferWrite, Stage.transfer⟩ : AccessState) := by decide

theorem kept_recordBuffer {compute : Bool} {index : Nat} {a : Attachment}
    (ha : guarded a = true → a.buf.buffer index = some b → HasStage ⟨a.getAccessMask, a.getPipelineStageFlags compute⟩
      ∧ Holds a.buf.offset a.buf.size y) {r r' : Rec} (h : Kept b y c0 z0 r)
    (e : recordBuffer compute index r a = some r') : Kept b y c0 z0 r' := by
  unfold recordBuffer at e
  split at e
  · rename_i hg
    cases hx : a.buf.buffer index with
    | none => rw [hx] at e; simp at e
    | some d =>
      rw [hx] at e
      have ha' : d = b → HasStage ⟨a.getAccessMask, a.getPipelineStageFlags compute⟩ ∧ Holds a.buf.offset a.buf.size y :=
        fun hd => ha hg (hd ▸ hx)
      simp only at e
      split at e
      · simp only [Option.some.injEq] at e
        subst e
        obtain ⟨h1, h2, h3⟩ := kept_bufferBarrier h d a.buf.offset a.buf.size (r.ctx.getAccess d)
          ⟨Access.transferWrite, Stage.transfer⟩ false (fun hd => ⟨transferWrite_stage, (ha' hd).2⟩)
        have h2 : (r.bufferBarrier d a.buf.offset a.buf.size (r.ctx.getAccess d) ⟨Access.transferWrite, Stage.transfer⟩ false).ctx.getAccess d
            = ⟨Access.transferWrite, Stage.transfer⟩ := by
          rcases h2 with h2 | ⟨h2, h4⟩
          · exact h2
          · rw [h4] at h2; exact absurd h2 (by decide)
        generalize r.bufferBarrier d a.buf.offset a.buf.size (r.ctx.getAccess d) ⟨Access.transferWrite, Stage.transfer⟩ false = r1 at *
        refine (kept_bufferBarrier (kept_emit h1 (k := .fillBuffer d _ _) (fun _ => rfl) (fun _ _ _ _ => by simp) ?_) d _ _ _ _ _ ha').1
        intro w hw
        cases w with
        | true =>
          have hd : d = b := hw
          rw [← hd, h2]
          rfl
        | false => exact absurd hw (fun x => x)
      · simp only [Option.some.injEq] at e
        subst e
        exact (kept_bufferBarrier h d _ _ _ _ _ ha').1
  · simp only [Option.some.injEq] at e
    subst e; exact h

theorem kept_foldOpt {α : Type} {f : Rec → α → Option Rec} : ∀ (as : List α),
    (∀ a ∈ as, ∀ r r', Kept b y c0 z0 r → f r a = some r' → Kept b y c0 z0 r') → ∀ r r', Kept b y c0 z0 r → Run.foldOpt f r as = some r' →
    Kept b y c0 z0 r'
  | [], _, r, r', h, e => by
    simp only [Run.foldOpt, Option.some.injEq] at e
    subst e; exact h
  | a :: as, hf, r, r', h, e => by
    unfold Run.foldOpt at e
    split at e
    · simp at e
    · rename_i r1 e1
      exact kept_foldOpt as (fun a ha => hf a (by simp [ha])) r1 r' (hf a (by simp) r r1 h e1) e

/-- What a pass needs of the buffer to be followed. -/
structure PassWell (b y index : Nat) (p : RunPass) : Prop where
  held : ∀ a, UsesBuf p index b a → Holds a.buf.offset a.buf.size y
  stage : ∀ a, UsesBuf p index b a → HasStage (wantsBuf p a)
  one : ∀ a a', UsesBuf p index b a → UsesBuf p index b a' → wantsBuf p a = wantsBuf p a'

/-- Before the body of a pass: the recording is kept, and the buffer is in the state the pass declares. -/
theorem kept_prepare {env : Env} {G : GraphSt} {p : RunPass} {index : Nat} (hp : PassWell b y index p) {r r' : Rec} (h : Kept b y c0 z0 r)
    (e : prepare env G p index r = some r') :
    Kept b y c0 z0 r' ∧ ∀ a, UsesBuf p index b a → r'.ctx.getAccess b = wantsBuf p a := by
  unfold prepare at e
  split at e
  · simp at e
  · rename_i r1 e1
    have h1 := kept_quiet h (quiet_foldOpt _ (fun a _ r r' e => quiet_recordImage e) _ _ e1)
    refine ⟨kept_foldOpt _ (fun a ha r r' h e => kept_recordBuffer (fun hg hx => ?_) h e) _ _ h1 e, ?_⟩
    · have hu := (usesBuf_iff p index b a).2 ⟨ha, hg, hx⟩
      exact ⟨hp.stage a hu, hp.held a hu⟩
    · intro a hu
      have hu' := (usesBuf_iff p index b a).1 hu
      exact ((recordBuffers_effect p.compute index b (wantsBuf p a) p.buffers r1 r' (fun x hx hg hb =>
        hp.one x a ((usesBuf_iff p index b x).2 ⟨hx, hg, hb⟩) hu) e).2.2 ⟨a, hu'.1, hu'.2⟩).1

/-! ### The bodies -/

section Bodies
variable {sepDS : Bool} {G : GraphSt}

theorem addAttach_buffers (sepDS : Bool) (o : RPass.PassObj) (c : Ctx) (a : Attachment) (v : View) (s t : LayoutState) :
    (RPass.addAttach sepDS o c a v s t).2.2.buffers = c.buffers := by
  unfold RPass.addAttach
  simp only
  repeat' split
  all_goals rfl

theorem createOne_buffers {p : RunPass} {index : Nat} {oc oc' : RPass.PassObj × Ctx} {a : Attachment}
    (e : RPass.createOne sepDS G p index oc a = some oc') : oc'.2.buffers = oc.2.buffers := by
  unfold RPass.createOne at e
  split at e
  · split at e
    · simp at e
    · rename_i v hv
      simp only at e
      have h1 := current_buffers G oc.2 v
      have h2 := addAttach_buffers sepDS oc.1 (getCurrentLayoutState G oc.2 v).2 a v
        (if (!a.isInput) = true then makeLayoutState Layout.undefined else (getCurrentLayoutState G oc.2 v).1)
        (getNextLayoutState sepDS G (getCurrentLayoutState G oc.2 v).2 p v)
      split at e
      · simp only [Option.some.injEq] at e
        rw [← e]; exact h2.trans h1
      · simp only [Option.some.injEq] at e
        rw [← e]; exact h2.trans h1
  · simp only [Option.some.injEq] at e
    rw [← e]

theorem createAll_buffers {p : RunPass} {index : Nat} : ∀ (as : List Attachment) (oc oc' : RPass.PassObj × Ctx),
    RPass.foldOpt (RPass.createOne sepDS G p index) oc as = some oc' → oc'.2.buffers = oc.2.buffers
  | [], oc, oc', e => by
    simp only [RPass.foldOpt, Option.some.injEq] at e
    rw [← e]
  | a :: as, oc, oc', e => by
    unfold RPass.foldOpt at e
    split at e
    · simp at e
    · rename_i oc1 e1
      exact (createAll_buffers as oc1 oc' e).trans (createOne_buffers e1)

theorem setAll_buffers (f : RPass.Entry → LayoutState) : ∀ (es : List RPass.Entry) (c : Ctx),
    (es.foldl (fun (c : Ctx) (e : RPass.Entry) => c.setLayout e.view.image e.view.viewType e.view.range (f e)) c).buffers = c.buffers
  | [], _ => rfl
  | _ :: es, _ => (setAll_buffers f es _).trans rfl

theorem quiet_draws {p : RunPass} {index w ht : Nat} {cached : Option RPass.PassObj} {draw : List Nat} {r r' : Rec}
    {o : RPass.PassObj} (e : RPass.recordPass sepDS G w ht p cached draw index r = some (o, r')) : Quiet b r r' := by
  unfold RPass.recordPass at e
  cases e0 : RPass.initialise sepDS G w ht p index cached r.ctx with
  | none => rw [e0] at e; simp at e
  | some obc =>
    obtain ⟨o1, bb, c⟩ := obc
    rw [e0] at e
    simp only [Option.map_some, Option.some.injEq, Prod.mk.injEq] at e
    obtain ⟨rfl, rfl⟩ := e
    have hc : c.buffers = r.ctx.buffers := by
      rcases RPass.initialise_cases e0 with ⟨rfl, hq, hchk, hpv, hnx, rfl⟩ | ⟨hb, hf⟩
      · rfl
      · obtain ⟨q1, q2, f1, f2, f3⟩ := RPass.initialise_new hf
        exact createAll_buffers _ _ _ f1
    refine ⟨?_, [.beginPass o1.atts o1.width o1.height o1.layers] ++ draw.map .user ++ [.endPass o1.atts], ?_, ?_⟩
    · unfold Ctx.getAccess
      have : (RPass.endPass { RPass.beginPass { r with ctx := c } o1 with
            cmds := (RPass.beginPass { r with ctx := c } o1).cmds ++ draw.map .user } o1).ctx.buffers = r.ctx.buffers :=
        (setAll_buffers (fun e => e.output) o1.entries _).trans
          ((setAll_buffers (fun e => e.input) o1.entries c).trans hc)
      rw [this]
    · show ((r.cmds ++ [.beginPass o1.atts o1.width o1.height o1.layers]) ++ draw.map .user) ++ [.endPass o1.atts] = _
      simp
    · intro k hk
      simp only [List.mem_append, List.mem_singleton, List.mem_map] at hk
      rcases hk with (rfl | ⟨n, -, rfl⟩) | rfl <;> trivial

theorem quiet_copyPairs (env : Env) (size : Xfer.Extent) (final index : Nat) : ∀ (as : List Attachment) (r r' : Rec),
    Xfer.copyPairs env size final index as r = some r' → Quiet b r r'
  | [], r, r', e => by
    simp only [Xfer.copyPairs, Option.some.injEq] at e
    subst e
    exact quiet_refl r
  | [_], r, r', e => by simp [Xfer.copyPairs] at e
  | s :: t :: rest, r, r', e => by
    unfold Xfer.copyPairs at e
    split at e
    · simp at e
    · rename_i r1 e1
      unfold Xfer.copyPair at e1
      split at e1
      · rename_i sv tv hs ht
        simp only [Option.some.injEq] at e1
        subst e1
        exact quiet_trans (quiet_trans (quiet_emit (k := .copyImage _ Layout.transferSrc _ _ Layout.transferDst _ _ _ _) r trivial)
          (quiet_final env _ tv final)) (quiet_copyPairs env size final index rest _ _ e)
      · simp at e1

theorem quiet_foldl {α : Type} (f : Rec → α → Rec) (hf : ∀ r a, Quiet b r (f r a)) : ∀ (l : List α) (r : Rec), Quiet b r (l.foldl f r)
  | [], r => quiet_refl r
  | a :: l, r => quiet_trans (hf r a) (quiet_foldl f hf l (f r a))

theorem quiet_generate (env : Env) (v : View) (ty : ViewType) (nx : LayoutState) (r : Rec) :
    Quiet b r (Mip.generate env G v ty nx r) := by
  unfold Mip.generate
  refine quiet_foldl _ (fun r layer => ?_) _ _
  unfold Mip.layerStep
  simp only
  refine quiet_trans (quiet_ctx r (current_buffers G r.ctx { v with range := Mip.sub (getAspectMask v.image.format) layer 0 })) ?_
  refine quiet_trans (quiet_imageBarrier env _ _ _ _ _ _ _) (quiet_foldl _ (fun r l => ?_) _ _)
  unfold Mip.levelStep
  simp only
  generalize getAspectMask v.image.format = asp
  have s1 := quiet_imageBarrier (b := b) env r v.image ty (Mip.sub asp layer l) Layout.undefined (makeLayoutState Layout.transferDst) false
  generalize r.imageBarrier env v.image ty (Mip.sub asp layer l) Layout.undefined (makeLayoutState Layout.transferDst) false
    = r1 at s1 ⊢
  have s2 := quiet_trans s1 (quiet_emit (k := .blitImage v.image.id Layout.transferSrc (Mip.sub asp layer (l - 1)) (Mip.corners v.image (l - 1))
    v.image.id Layout.transferDst (Mip.sub asp layer l) (Mip.corners v.image l) Mip.filterLinear) r1 trivial)
  generalize r1.emit _ = r2 at s2 ⊢
  have s3 := quiet_trans s2 (quiet_imageBarrier env r2 v.image ty (Mip.sub asp layer (l - 1)) Layout.transferSrc nx false)
  generalize r2.imageBarrier env v.image ty (Mip.sub asp layer (l - 1)) Layout.transferSrc nx false = r3 at s3 ⊢
  split
  · exact quiet_trans s3 (quiet_imageBarrier env r3 _ _ _ _ _ _)
  · exact quiet_trans s3 (quiet_imageBarrier env r3 _ _ _ _ _ _)

theorem kept_performAll : ∀ (calls : List Call), (∀ c ∈ calls, CallUses b y c) → ∀ {r : Rec}, Kept b y c0 z0 r →
    Kept b y c0 z0 (performAll sepDS r calls)
  | [], _, _, h => h
  | c :: cs, hc, r, h => by
    refine kept_performAll cs (fun x hx => hc x (by simp [hx])) ?_
    have hcc := hc c (by simp)
    cases c with
    | barrier v x w f => exact kept_quiet h (quiet_barrier _ r v x w f)
    | buffer q => exact (kept_bufferBarrier h _ _ _ _ _ _ hcc).1
    | register t => exact kept_quiet h (quiet_ctx r rfl)
    | use v en => exact kept_quiet h (quiet_runImplicit _ r v)
    | work k => exact kept_quiet h (quiet_emit r trivial)

theorem kept_bufferCopy {p : RunPass} {copyOffset copyRange index : Nat}
    (apart : ∀ s d : Attachment, p.buffers.head? = some s → p.buffers.getLast? = some d → s.buf.buffer index ≠ d.buf.buffer index)
    (held : ∀ s ∈ p.buffers, s.buf.buffer index = some b → Holds s.buf.offset s.buf.size y) {r r' : Rec} (h : Kept b y c0 z0 r)
    (e : Xfer.bufferCopy p copyOffset copyRange index r = some r') : Kept b y c0 z0 r' := by
  unfold Xfer.bufferCopy at e
  cases h1 : p.buffers.head? with
  | none => rw [h1] at e; simp at e
  | some s =>
    cases h2 : p.buffers.getLast? with
    | none => rw [h1, h2] at e; simp at e
    | some d =>
      rw [h1, h2] at e
      simp only at e
      have hap := apart s d h1 h2
      have hs := held s (List.mem_of_mem_head? h1)
      have hd := held d (List.mem_of_getLast? h2)
      cases h3 : s.buf.buffer index with
      | none => rw [h3] at e; simp at e
      | some x =>
        cases h4 : d.buf.buffer index with
        | none => rw [h3, h4] at e; simp at e
        | some z =>
          rw [h3, h4] at e
          simp only [Option.some.injEq] at e
          rw [h3, h4] at hap
          have hxz : x ≠ z := fun e => hap (by rw [e])
          have hx : x = b → Holds s.buf.offset s.buf.size y := fun e => hs (by rw [h3, e])
          have hz : z = b → Holds d.buf.offset d.buf.size y := fun e => hd (by rw [h4, e])
          subst e
          obtain ⟨k1, k2, k3⟩ := kept_bufferBarrier h x s.buf.offset s.buf.size ⟨Access.shaderWrite, Stage.fragmentShader⟩
            ⟨Access.transferRead, Stage.transfer⟩ false (fun e => ⟨by decide, hx e⟩)
          have k2 := k2.resolve_right (fun hh => absurd hh.2 (by decide))
          generalize r.bufferBarrier x s.buf.offset s.buf.size ⟨Access.shaderWrite, Stage.fragmentShader⟩
            ⟨Access.transferRead, Stage.transfer⟩ false = r1 at *
          obtain ⟨l1, l2, l3⟩ := kept_bufferBarrier k1 z d.buf.offset d.buf.size ⟨0, Stage.bottomOfPipe⟩
            ⟨Access.transferWrite, Stage.transfer⟩ false (fun e => ⟨by decide, hz e⟩)
          have l2 := l2.resolve_right (fun hh => absurd hh.2 (by decide))
          have l4 := (l3 x hxz).trans k2
          generalize r1.bufferBarrier z d.buf.offset d.buf.size ⟨0, Stage.bottomOfPipe⟩
            ⟨Access.transferWrite, Stage.transfer⟩ false = r2 at *
          have m1 : Kept b y c0 z0 (r2.emit (.copyBuffer x z (s.buf.offset + copyOffset) (d.buf.offset + copyOffset) copyRange)) := by
            refine kept_emit l1 (fun _ => rfl) (fun _ _ _ _ => by simp) ?_
            intro w hw
            cases w with
            | true => have hw : z = b := hw; rw [← hw, l2]; rfl
            | false => have hw : x = b := hw; rw [← hw, l4]; rfl
          exact (kept_bufferBarrier (kept_bufferBarrier m1 z _ _ _ _ _ (fun e => ⟨by decide, hz e⟩)).1 x _ _ _ _ _
            (fun e => ⟨by decide, hx e⟩)).1

/-- The body of a pass, entered with the recording `r`. -/
theorem kept_body {cached : Option RPass.PassObj} {p : RunPass} {index : Nat} (hB : BodyUses sepDS G b y index cached p) {r : Rec}
    (hs : ∀ a, UsesBuf p index b a → r.ctx.getAccess b = wantsBuf p a) (h : Kept b y c0 z0 r) : Kept b y c0 z0 (p.body index r) := by
  cases hB with
  | draws w ht draw hb =>
    rw [hb]
    cases e1 : RPass.recordPass sepDS G w ht p cached draw index r with
    | none => exact h
    | some x =>
      obtain ⟨o, r'⟩ := x
      exact kept_quiet h (quiet_draws e1)
  | copies en size final body =>
    rw [body]
    cases e : Xfer.imageCopy ⟨sepDS, en⟩ p size final index r with
    | none => exact h
    | some r' => exact kept_quiet h (quiet_copyPairs ⟨sepDS, en⟩ size final index p.images r r' e)
  | blits so ss dof ds fi body =>
    rw [body]
    unfold Xfer.imageBlit
    split
    · split
      · exact kept_quiet h (quiet_emit (k := .blitImage _ Layout.transferSrc _ _ _ Layout.transferDst _ _ _) r trivial)
      · exact h
    · exact h
  | copiesBuffers co cr body apart held =>
    rw [body]
    cases e : Xfer.bufferCopy p co cr index r with
    | none => exact h
    | some r' => exact kept_bufferCopy apart held h e
  | uploads o s body declared =>
    rw [body]
    unfold Xfer.bufferToImage
    split
    · rename_i a d e1 e2
      split
      · rename_i t x e3 e4
        refine kept_emit h (k := .copyBufferToImage x _ _ Layout.transferDst _ _ _ _ _ _ _) (fun _ => rfl) (fun _ _ _ _ => by simp) ?_
        intro w hw
        cases w with
        | true => exact absurd hw (fun x => x)
        | false =>
          have hw : x = b := hw
          obtain ⟨f1, f2⟩ := declared d e2 (by rw [e4, hw])
          rw [hs d ⟨List.mem_of_mem_head? e2, f1, by rw [e4, hw]⟩, f2]
          rfl
      · exact h
    · exact h
  | downloads o s body declared =>
    rw [body]
    unfold Xfer.imageToBuffer
    split
    · rename_i a d e1 e2
      split
      · rename_i t x e3 e4
        refine kept_emit h (k := .copyImageToBuffer _ Layout.transferSrc _ _ _ _ _ _ _ x _) (fun _ => rfl) (fun _ _ _ _ => by simp) ?_
        intro w hw
        cases w with
        | false => exact absurd hw (fun x => x)
        | true =>
          have hw : x = b := hw
          obtain ⟨f1, f2⟩ := declared d e2 (by rw [e4, hw])
          rw [hs d ⟨List.mem_of_mem_head? e2, f1, by rw [e4, hw]⟩, f2]
          rfl
      · exact h
    · exact h
  | mipmaps ty output body =>
    obtain ⟨en, hb⟩ := body r
    rw [hb]
    split
    · split
      · exact kept_quiet h (quiet_generate _ _ _ _ _)
      · exact h
    · exact h
  | uses hb =>
    obtain ⟨calls, hc, e⟩ := hb r
    rw [e]
    exact kept_performAll calls hc h

end Bodies

/-! ### The frame -/

theorem announce_buffers (env : Env) (G : GraphSt) (p : RunPass) (nx : List RunPass) (c : Ctx) :
    (announce env G p nx c).buffers = c.buffers := by
  unfold announce
  repeat' split
  all_goals rfl

theorem kept_loop {env : Env} {G : GraphSt} {index : Nat → Nat} {cached : Nat → Nat → Option RPass.PassObj} :
    ∀ (ps : List RunPass) (z0 : List Cmd) (f f' : Frame), UsedWell env.sepDS G b y index cached ps →
    Kept b y c0 z0 f.recd → recordLoop env G index ps f = some f' →
    Kept b y c0 z0 f'.recd
    ∧ ∀ k r, RPass.enteredRec env G index ps f k = some r → r.cmds <+: f'.recd.cmds
      ∧ ∀ p a, ps[k]? = some p → UsesBuf p (index p.id) b a → bstate b c0 r.cmds = wantsBuf p a
  | [], z0, f, f', _, h, e => by
    simp only [recordLoop, Option.some.injEq] at e
    subst e
    exact ⟨h, fun k r he => absurd he (by simp [RPass.enteredRec])⟩
  | p :: nx, z0, f, f', hW, h, e => by
    unfold recordLoop at e
    simp only at e
    have hP : PassWell b y (index p.id) p := ⟨hW.held p (by simp), hW.stage p (by simp), hW.one p (by simp)⟩
    have hW' : UsedWell env.sepDS G b y index cached nx := ⟨fun q hq => hW.held q (by simp [hq]), fun q hq => hW.stage q (by simp [hq]),
      fun q hq => hW.one q (by simp [hq]), fun q hq => hW.bodies q (by simp [hq])⟩
    have h0 : Kept b y c0 z0 { f.recd with ctx := announce env G p nx f.recd.ctx } :=
      kept_quiet h (quiet_ctx f.recd (announce_buffers env G p nx f.recd.ctx))
    have hprep := fun r => kept_prepare (r' := r) (env := env) (G := G) hP h0
    split at e
    · simp at e
    · rename_i f1 e1
      have h1 : Kept b y c0 z0 f1.recd ∧ ∀ r, env.enabled p.id = true →
          prepare env G p (index p.id) { f.recd with ctx := announce env G p nx f.recd.ctx } = some r → r.cmds <+: f1.recd.cmds := by
        unfold recordInto at e1
        split at e1
        · rename_i hen
          split at e1
          · simp only at e1
            generalize hf2 : (if (!f.initialised p.id (index p.id)) = true then
              Frame.initialise { f with recd := { f.recd with ctx := announce env G p nx f.recd.ctx } } p (index p.id)
              else { f with recd := { f.recd with ctx := announce env G p nx f.recd.ctx } } : Frame) = f2 at e1
            have hr2 : f2.recd = { f.recd with ctx := announce env G p nx f.recd.ctx } := by
              rw [← hf2]; split <;> rfl
            rw [hr2] at e1
            split at e1
            · simp at e1
            · rename_i r er
              simp only [Option.some.injEq] at e1
              subst e1
              obtain ⟨g1, g2⟩ := hprep r er
              have g3 : Kept b y c0 r.cmds (registerAll p (p.body (index p.id) r)) :=
                kept_quiet (kept_body (hW.bodies p (by simp)) g2 ⟨List.prefix_refl _, g1.link, g1.along⟩) (quiet_registerAll p _)
              refine ⟨⟨g1.grows.trans g3.grows, g3.link, g3.along⟩, ?_⟩
              intro r' _ er'
              rw [er] at er'
              cases er'
              exact g3.grows
          · simp at e1
        · rename_i hen
          simp only [Option.some.injEq] at e1
          subst e1
          exact ⟨kept_quiet h0 (quiet_registerAll p _), fun r hx => absurd hx hen⟩
      obtain ⟨t1, t2⟩ := kept_loop nx f1.recd.cmds f1 f' hW' ⟨List.prefix_refl _, h1.1.link, h1.1.along⟩ e
      refine ⟨⟨h1.1.grows.trans t1.grows, t1.link, t1.along⟩, ?_⟩
      intro k r he
      unfold RPass.enteredRec at he
      simp only at he
      cases k with
      | zero =>
        simp only at he
        split at he
        · rename_i hen
          obtain ⟨g1, g2⟩ := hprep r he
          refine ⟨(h1.2 r hen he).trans t1.grows, ?_⟩
          intro q a hq hu
          simp only [List.getElem?_cons_zero, Option.some.injEq] at hq
          subst hq
          rw [← g1.link]
          exact g2 a hu
        · simp at he
      | succ k =>
        simp only [e1, Option.bind_some] at he
        obtain ⟨u1, u2⟩ := t2 k r he
        exact ⟨u1, fun q a hq hu => u2 q a (by simpa using hq) hu⟩

/-! ### What the barriers order -/

/-- From a state later barriers can wait for: the barriers recorded lead to the state the buffer is then in. -/
theorem chain : ∀ (cs pre : List Cmd) (s : AccessState), bstate b c0 pre = s → HasStage s →
    (∀ q k post, pre ++ cs = q ++ k :: post → Fine b y (bstate b c0 q) k) →
    (bstate b c0 (pre ++ cs) = s ∧ barriers b y cs = []) ∨ Ordered s (barriers b y cs) (bstate b c0 (pre ++ cs))
  | [], pre, s, h, _, _ => Or.inl ⟨by simpa using h, rfl⟩
  | k :: cs, pre, s, h, hs, hA => by
    have hk := hA pre k cs rfl
    rw [h] at hk
    have happ : pre ++ k :: cs = (pre ++ [k]) ++ cs := by simp
    have hA' : ∀ q x post, (pre ++ [k]) ++ cs = q ++ x :: post → Fine b y (bstate b c0 q) x := fun q x post e =>
      hA q x post (by rw [happ]; exact e)
    have hst : bstate b c0 (pre ++ [k]) = next b s k := by rw [bstate_append, h]; rfl
    rw [happ]
    by_cases hb : ∃ o n src dst, k = .bufferBarrier b o n src dst
    · obtain ⟨o, n, src, dst, rfl⟩ := hb
      obtain ⟨h1, h2, h3⟩ := hk.1 o n src dst rfl
      have h1 : src = s := h1.resolve_right (stage_not_bottom hs)
      subst h1
      have hsc : barriers b y (.bufferBarrier b o n src dst :: cs) = (src, dst) :: barriers b y cs := by
        unfold barriers
        rw [List.filterMap_cons]
        simp [scopes, h3]
      have hd : next b src (.bufferBarrier b o n src dst) = dst := if_pos rfl
      rw [hsc]
      rcases chain cs (pre ++ [.bufferBarrier b o n src dst]) dst (hst.trans hd) h2 hA' with ⟨c1, c2⟩ | c
      · rw [c1, c2]
        exact Or.inr ⟨covers_refl _, covers_refl _⟩
      · right
        generalize barriers b y cs = bs at c ⊢
        cases bs with
        | nil => exact absurd c (fun x => x)
        | cons b' bs => exact ⟨covers_refl _, h2, c⟩
    · have hn : next b s k = s := by
        cases k with
        | bufferBarrier b' o n src dst => exact if_neg fun hx => hb ⟨o, n, src, dst, by rw [hx]⟩
        | _ => rfl
      have hsc : barriers b y (k :: cs) = barriers b y cs := by
        unfold barriers
        rw [List.filterMap_cons]
        have : scopes b y k = none := by
          cases k with
          | bufferBarrier b' o n src dst => exact if_neg fun hx => hb ⟨o, n, src, dst, by rw [hx.1]⟩
          | _ => rfl
        rw [this]
      rw [hsc]
      exact chain cs (pre ++ [k]) s (hst.trans hn) hs hA'

/-- C98 (partial: see `UsedWell`; two uses of one kind with no barrier between them stay unordered). Any two uses of a buffer in a
frame, be they transfer commands or passes the buffer is attached to: the barriers recorded between them order the accesses, unless
the accesses are the same and there is no barrier between them. -/
theorem buffer_uses_ordered_partial {env : Env} {G : GraphSt} {index : Nat → Nat} {cached : Nat → Nat → Option RPass.PassObj}
    {passes : List RunPass} {deps : List Ctx} {ini : Nat → Nat → Bool} {log : List Event}
    (hW : UsedWell env.sepDS G b y index cached passes) {G' : GraphSt} {f : Frame}
    (e : record env G deps index passes ini log = some (G', f)) {pre mid : List Cmd} {s t : AccessState}
    (h1 : Moment env G b index passes (frameStart env.sepDS deps passes ini log) f.recd.cmds pre s)
    (h2 : Moment env G b index passes (frameStart env.sepDS deps passes ini log) f.recd.cmds (pre ++ mid) t) :
    (s = t ∧ barriers b y mid = []) ∨ Ordered s (barriers b y mid) t := by
  unfold record at e
  simp only at e
  split at e
  · simp at e
  · rename_i f1 e1
    simp only [Option.some.injEq, Prod.mk.injEq] at e
    obtain ⟨rfl, rfl⟩ := e
    have h0 : Kept b y ((frameStart env.sepDS deps passes ini log).recd.ctx.getAccess b) []
        (frameStart env.sepDS deps passes ini log).recd := ⟨List.nil_prefix, rfl, along_nil⟩
    obtain ⟨k1, k2⟩ := kept_loop passes [] (frameStart env.sepDS deps passes ini log) f1 hW h0 e1
    generalize (frameStart env.sepDS deps passes ini log).recd.ctx.getAccess b = c0 at k1 k2
    have key : ∀ {pre s}, Moment env G b index passes (frameStart env.sepDS deps passes ini log) f1.recd.cmds pre s →
        pre <+: f1.recd.cmds ∧ bstate b c0 pre = s ∧ HasStage s := by
      intro pre s hm
      cases hm with
      | transfer _ post x w hat hd =>
        refine ⟨by rw [hat]; exact List.prefix_append _ _, (k1.along pre x post hat).2 w hd, ?_⟩
        cases w <;> decide
      | pass k p r a hp he hu =>
        obtain ⟨u1, u2⟩ := k2 k r he
        exact ⟨u1, u2 p a hp hu, hW.stage p (List.mem_of_getElem? hp) a hu⟩
    obtain ⟨p1, s1, t1⟩ := key h1
    obtain ⟨p2, s2, t2⟩ := key h2
    obtain ⟨tl, htl⟩ := p2
    have hA : ∀ q k post, pre ++ mid = q ++ k :: post → Fine b y (bstate b c0 q) k := fun q k post e =>
      k1.along q k (post ++ tl) (by rw [← htl, e]; simp)
    rcases chain mid pre s s1 t1 hA with ⟨c1, c2⟩ | c
    · exact Or.inl ⟨by rw [← c1]; exact s2, c2⟩
    · rw [s2] at c; exact Or.inr c

/-! ### The hypotheses are met -/

/-- A compute pass that uses bytes `o` to `o + n` of buffer `b` through one of the `add…` methods. -/
def cPass (id : Nat) (m : BufferAdder) (b o n : Nat) : RunPass :=
  ⟨id, 1, true, ⟨Access.shaderRead, Stage.computeShader⟩, [], [m.attach id 0 [b] 0 o n], [],
    fun _ r => performAll false r [.work id]⟩

/-- What the pass that copies buffer 7 to buffer 8 declares. -/
def copyDecl : RunPass :=
  ⟨2, 1, false, ⟨Access.transferRead, Stage.transfer⟩, [],
    [BufferAdder.transferInput.attach 2 0 [7] 0 0 64, BufferAdder.transferOutput.attach 2 1 [8] 0 0 64], [], fun _ r => r⟩

/-- A pass that copies buffer 7 to buffer 8. -/
def copyPass : RunPass := { copyDecl with body := fun index r => (Xfer.bufferCopy copyDecl 0 64 index r).getD r }

/-- A buffer is written by a compute pass, copied, and read by another compute pass. -/
def cPasses : List RunPass := [cPass 1 .outputStorage 7 0 64, copyPass, cPass 3 .inputStorage 7 0 64]

theorem cPass_body (id : Nat) (m : BufferAdder) (b o n b' y' index : Nat) :
    BodyUses false xG b' y' index none (cPass id m b o n) :=
  .uses fun r => ⟨[.work id], fun c hc => by rw [List.mem_singleton.1 hc]; trivial, rfl⟩

theorem copy_body (b' : Nat) : BodyUses false xG b' 5 0 none copyPass :=
  .copiesBuffers 0 64 (by
    intro r
    show (Xfer.bufferCopy copyDecl 0 64 0 r).getD r = _
    unfold Xfer.bufferCopy
    rw [show copyPass.buffers = copyDecl.buffers from rfl]) (by
    intro s d h1 h2
    have h1 : BufferAdder.transferInput.attach 2 0 [7] 0 0 64 = s := Option.some.inj h1
    have h2 : BufferAdder.transferOutput.attach 2 1 [8] 0 0 64 = d := Option.some.inj h2
    subst h1 h2
    decide) (by
    intro s hs _
    have hs : s ∈ [BufferAdder.transferInput.attach 2 0 [7] 0 0 64, BufferAdder.transferOutput.attach 2 1 [8] 0 0 64] := hs
    simp only [List.mem_cons, List.not_mem_nil, or_false] at hs
    rcases hs with rfl | rfl <;> decide)

theorem c_well : UsedWell false xG 7 5 (fun _ => 0) (fun _ _ => none) cPasses := by
  have key : ∀ p ∈ cPasses, ∀ a, UsesBuf p 0 7 a → (p, a) = (cPass 1 .outputStorage 7 0 64, BufferAdder.outputStorage.attach 1 0 [7] 0 0 64)
      ∨ (p, a) = (copyPass, BufferAdder.transferInput.attach 2 0 [7] 0 0 64)
      ∨ (p, a) = (cPass 3 .inputStorage 7 0 64, BufferAdder.inputStorage.attach 3 0 [7] 0 0 64) := by
    rintro p hp a ⟨h1, -, h3⟩
    simp only [cPasses, List.mem_cons, List.not_mem_nil, or_false] at hp
    rcases hp with rfl | rfl | rfl
    · have h1 : a ∈ [BufferAdder.outputStorage.attach 1 0 [7] 0 0 64] := h1
      rw [List.mem_singleton.1 h1]
      exact Or.inl rfl
    · have h1 : a ∈ [BufferAdder.transferInput.attach 2 0 [7] 0 0 64, BufferAdder.transferOutput.attach 2 1 [8] 0 0 64] := h1
      simp only [List.mem_cons, List.not_mem_nil, or_false] at h1
      rcases h1 with rfl | rfl
      · exact Or.inr (Or.inl rfl)
      · exact absurd h3 (by decide)
    · have h1 : a ∈ [BufferAdder.inputStorage.attach 3 0 [7] 0 0 64] := h1
      rw [List.mem_singleton.1 h1]
      exact Or.inr (Or.inr rfl)
  have tgt : ∀ {P : RunPass → Attachment → Prop}, P (cPass 1 .outputStorage 7 0 64) (BufferAdder.outputStorage.attach 1 0 [7] 0 0 64) →
      P copyPass (BufferAdder.transferInput.attach 2 0 [7] 0 0 64) →
      P (cPass 3 .inputStorage 7 0 64) (BufferAdder.inputStorage.attach 3 0 [7] 0 0 64) →
      ∀ p ∈ cPasses, ∀ a, UsesBuf p 0 7 a → P p a := by
    intro P h1 h2 h3 p hp a hu
    rcases key p hp a hu with e | e | e <;> cases e <;> assumption
  refine ⟨tgt (P := fun _ a => Holds a.buf.offset a.buf.size 5) (by decide) (by decide) (by decide),
    tgt (P := fun p a => HasStage (wantsBuf p a)) (by decide) (by decide) (by decide), ?_, ?_⟩
  · intro p hp a a' h h'
    rcases key p hp a h with e | e | e <;> rcases key p hp a' h' with e' | e' | e' <;>
      simp only [Prod.mk.injEq] at e e' <;> first
      | exact congrArg _ (e.2.trans e'.2.symm)
      | (exact absurd (congrArg RunPass.id (e.1.symm.trans e'.1)) (by decide))
  · intro p hp
    simp only [cPasses, List.mem_cons, List.not_mem_nil, or_false] at hp
    rcases hp with rfl | rfl | rfl
    · exact cPass_body _ _ _ _ _ _ _ _
    · exact copy_body _
    · exact cPass_body _ _ _ _ _ _ _ _

/-- The theorem applies: the pass that writes the buffer and the copy, the copy and the pass that reads it. -/
theorem example_buffer_ordered : ∃ G' f pre mid mid', record ⟨false, fun _ => true⟩ xG [] (fun _ => 0) cPasses (fun _ _ => false) []
      = some (G', f)
    ∧ Moment ⟨false, fun _ => true⟩ xG 7 (fun _ => 0) cPasses (frameStart false [] cPasses (fun _ _ => false) []) f.recd.cmds pre
      ⟨Access.shaderWrite, Stage.computeShader⟩
    ∧ Moment ⟨false, fun _ => true⟩ xG 7 (fun _ => 0) cPasses (frameStart false [] cPasses (fun _ _ => false) []) f.recd.cmds (pre ++ mid)
      (scope false)
    ∧ Moment ⟨false, fun _ => true⟩ xG 7 (fun _ => 0) cPasses (frameStart false [] cPasses (fun _ _ => false) []) f.recd.cmds
      (pre ++ mid ++ mid') ⟨Access.shaderRead, Stage.computeShader⟩
    ∧ Ordered ⟨Access.shaderWrite, Stage.computeShader⟩ (barriers 7 5 mid) (scope false)
    ∧ Ordered (scope false) (barriers 7 5 mid') ⟨Access.shaderRead, Stage.computeShader⟩ := by
  have hf : ∃ G' f, record ⟨false, fun _ => true⟩ xG [] (fun _ => 0) cPasses (fun _ _ => false) [] = some (G', f)
      ∧ f.recd.cmds = [.bufferBarrier 7 0 64 ⟨0, 8192⟩ ⟨64, 2048⟩, .work 1, .bufferBarrier 7 0 64 ⟨64, 2048⟩ ⟨2048, 4096⟩,
        .bufferBarrier 8 0 64 ⟨0, 8192⟩ ⟨4096, 4096⟩, .copyBuffer 7 8 0 0 64, .bufferBarrier 8 0 64 ⟨4096, 4096⟩ ⟨32, 2048⟩,
        .bufferBarrier 7 0 64 ⟨2048, 4096⟩ ⟨64, 128⟩, .bufferBarrier 7 0 64 ⟨64, 128⟩ ⟨32, 2048⟩, .work 3] := by
    cases h : record ⟨false, fun _ => true⟩ xG [] (fun _ => 0) cPasses (fun _ _ => false) [] with
    | none => exact absurd (congrArg Option.isSome h) (by decide +kernel)
    | some x =>
      refine ⟨x.1, x.2, rfl, ?_⟩
      have h2 := congrArg (Option.map fun x : GraphSt × Frame => x.2.recd.cmds) h
      exact (Option.some.inj (((show Option.map (fun x : GraphSt × Frame => x.2.recd.cmds)
        (record ⟨false, fun _ => true⟩ xG [] (fun _ => 0) cPasses (fun _ _ => false) []) = some _ from by decide +kernel).symm.trans h2))).symm
  have en : ∀ k cs, ((RPass.enteredRec ⟨false, fun _ => true⟩ xG (fun _ => 0) cPasses (frameStart false [] cPasses (fun _ _ => false) []) k).map
      (·.cmds)) = some cs → ∃ r, RPass.enteredRec ⟨false, fun _ => true⟩ xG (fun _ => 0) cPasses
        (frameStart false [] cPasses (fun _ _ => false) []) k = some r ∧ r.cmds = cs := by
    intro k cs h
    cases hr : RPass.enteredRec ⟨false, fun _ => true⟩ xG (fun _ => 0) cPasses (frameStart false [] cPasses (fun _ _ => false) []) k with
    | none => rw [hr] at h; simp at h
    | some r => rw [hr] at h; exact ⟨r, rfl, Option.some.inj h⟩
  obtain ⟨G', f, e, hc⟩ := hf
  obtain ⟨r0, e0, h0⟩ := en 0 [.bufferBarrier 7 0 64 ⟨0, 8192⟩ ⟨64, 2048⟩] (by decide +kernel)
  obtain ⟨r2, e2, h2⟩ := en 2 [.bufferBarrier 7 0 64 ⟨0, 8192⟩ ⟨64, 2048⟩, .work 1, .bufferBarrier 7 0 64 ⟨64, 2048⟩ ⟨2048, 4096⟩,
        .bufferBarrier 8 0 64 ⟨0, 8192⟩ ⟨4096, 4096⟩, .copyBuffer 7 8 0 0 64, .bufferBarrier 8 0 64 ⟨4096, 4096⟩ ⟨32, 2048⟩,
        .bufferBarrier 7 0 64 ⟨2048, 4096⟩ ⟨64, 128⟩, .bufferBarrier 7 0 64 ⟨64, 128⟩ ⟨32, 2048⟩] (by decide +kernel)
  have m0 := Moment.pass (env := ⟨false, fun _ => true⟩) (b := 7) (cmds := f.recd.cmds) 0 _ r0
    (BufferAdder.outputStorage.attach 1 0 [7] 0 0 64) rfl e0 ⟨List.mem_singleton.2 rfl, by decide, rfl⟩
  have m2 := Moment.pass (env := ⟨false, fun _ => true⟩) (b := 7) (cmds := f.recd.cmds) 2 _ r2
    (BufferAdder.inputStorage.attach 3 0 [7] 0 0 64) rfl e2 ⟨List.mem_singleton.2 rfl, by decide, rfl⟩
  have m1 := Moment.transfer (env := ⟨false, fun _ => true⟩) (G := xG) (b := 7) (index := fun _ => 0) (passes := cPasses)
    (f0 := frameStart false [] cPasses (fun _ _ => false) []) (cmds := f.recd.cmds)
    [.bufferBarrier 7 0 64 ⟨0, 8192⟩ ⟨64, 2048⟩, .work 1, .bufferBarrier 7 0 64 ⟨64, 2048⟩ ⟨2048, 4096⟩,
        .bufferBarrier 8 0 64 ⟨0, 8192⟩ ⟨4096, 4096⟩] _ (.copyBuffer 7 8 0 0 64) false hc rfl
  rw [h0] at m0
  rw [h2] at m2
  have o1 := buffer_uses_ordered_partial (env := ⟨false, fun _ => true⟩) c_well e m0 (mid := [.work 1, .bufferBarrier 7 0 64 ⟨64, 2048⟩ ⟨2048, 4096⟩,
        .bufferBarrier 8 0 64 ⟨0, 8192⟩ ⟨4096, 4096⟩]) m1
  have o2 := buffer_uses_ordered_partial (env := ⟨false, fun _ => true⟩) c_well e m1 (mid := [.copyBuffer 7 8 0 0 64, .bufferBarrier 8 0 64 ⟨4096, 4096⟩ ⟨32, 2048⟩,
        .bufferBarrier 7 0 64 ⟨2048, 4096⟩ ⟨64, 128⟩, .bufferBarrier 7 0 64 ⟨64, 128⟩ ⟨32, 2048⟩]) m2
  refine ⟨G', f, _, _, _, e, m0, m1, m2, o1.resolve_left ?_, o2.resolve_left ?_⟩
  · exact fun h => absurd h.2 (by decide)
  · exact fun h => absurd h.2 (by decide)

/-! ### What is not ordered -/

/-- A compute pass writes 128 bytes of a buffer, another one reads the second half, another one the first half. -/
def halves : List RunPass := [cPass 1 .outputStorage 7 0 128, cPass 2 .inputStorage 7 64 64, cPass 3 .inputStorage 7 0 64]

/-- Uses of different ranges of one buffer are not ordered: no barrier on byte 0 is recorded between the pass that writes it and the
pass that reads it. (The state is tracked by buffer, and the range of the barriers is the one of the attachment.) -/
theorem halves_unordered : ∃ G' f pre mid, record ⟨false, fun _ => true⟩ xG [] (fun _ => 0) halves (fun _ _ => false) [] = some (G', f)
    ∧ Moment ⟨false, fun _ => true⟩ xG 7 (fun _ => 0) halves (frameStart false [] halves (fun _ _ => false) []) f.recd.cmds pre
      ⟨Access.shaderWrite, Stage.computeShader⟩
    ∧ Moment ⟨false, fun _ => true⟩ xG 7 (fun _ => 0) halves (frameStart false [] halves (fun _ _ => false) []) f.recd.cmds (pre ++ mid)
      ⟨Access.shaderRead, Stage.computeShader⟩
    ∧ Holds 0 128 0 ∧ Holds 0 64 0 ∧ barriers 7 0 mid = [] := by
  have hf : ∃ G' f, record ⟨false, fun _ => true⟩ xG [] (fun _ => 0) halves (fun _ _ => false) [] = some (G', f) := by
    cases h : record ⟨false, fun _ => true⟩ xG [] (fun _ => 0) halves (fun _ _ => false) [] with
    | none => exact absurd (congrArg Option.isSome h) (by decide +kernel)
    | some x => exact ⟨x.1, x.2, rfl⟩
  have en : ∀ k cs, ((RPass.enteredRec ⟨false, fun _ => true⟩ xG (fun _ => 0) halves (frameStart false [] halves (fun _ _ => false) []) k).map
      (·.cmds)) = some cs → ∃ r, RPass.enteredRec ⟨false, fun _ => true⟩ xG (fun _ => 0) halves
        (frameStart false [] halves (fun _ _ => false) []) k = some r ∧ r.cmds = cs := by
    intro k cs h
    cases hr : RPass.enteredRec ⟨false, fun _ => true⟩ xG (fun _ => 0) halves (frameStart false [] halves (fun _ _ => false) []) k with
    | none => rw [hr] at h; simp at h
    | some r => rw [hr] at h; exact ⟨r, rfl, Option.some.inj h⟩
  obtain ⟨G', f, e⟩ := hf
  obtain ⟨r0, e0, h0⟩ := en 0 [.bufferBarrier 7 0 128 ⟨0, 8192⟩ ⟨64, 2048⟩] (by decide +kernel)
  obtain ⟨r2, e2, h2⟩ := en 2 [.bufferBarrier 7 0 128 ⟨0, 8192⟩ ⟨64, 2048⟩, .work 1, .bufferBarrier 7 64 64 ⟨64, 2048⟩ ⟨32, 2048⟩, .work 2]
    (by decide +kernel)
  have m0 := Moment.pass (env := ⟨false, fun _ => true⟩) (b := 7) (cmds := f.recd.cmds) 0 _ r0
    (BufferAdder.outputStorage.attach 1 0 [7] 0 0 128) rfl e0 ⟨List.mem_singleton.2 rfl, by decide, rfl⟩
  have m2 := Moment.pass (env := ⟨false, fun _ => true⟩) (b := 7) (cmds := f.recd.cmds) 2 _ r2
    (BufferAdder.inputStorage.attach 3 0 [7] 0 0 64) rfl e2 ⟨List.mem_singleton.2 rfl, by decide, rfl⟩
  rw [h0] at m0
  rw [h2] at m2
  exact ⟨G', f, _, [.work 1, .bufferBarrier 7 64 64 ⟨64, 2048⟩ ⟨32, 2048⟩, .work 2], e, m0, m2, by decide, by decide, by decide⟩

end Verif.BHaz
