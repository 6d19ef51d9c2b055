import Verif.Spec.Bracket
import Verif.Props.Library
import Verif.Lemmas.SettleDraw
/-
C85: the render pass instances of a frame are well formed.
-/
namespace Verif.Brk
open Verif.Rec Verif.Run Verif.Att Verif.Gpu

theorem Instances.append {a b : List Cmd} {i k : List (List Cmd)} (ha : Instances a i) (hb : Instances b k) :
    Instances (a ++ b) (i ++ k) := by
  induction ha with
  | nil => exact hb
  | outside c cs is h1 h2 _ ih => exact .outside c _ _ h1 h2 ih
  | instance' atts w h l inner cs is hi _ ih =>
    rw [List.cons_append, List.append_assoc, List.cons_append]
    exact .instance' atts w h l inner _ _ hi ih

theorem Instances.wellFormed {cs : List Cmd} {is : List (List Cmd)} (h : Instances cs is) : WellFormed cs := by
  induction h with
  | nil => exact .nil
  | outside c cs is h1 h2 _ ih => exact .outside c _ h1 h2 ih
  | instance' atts w h l inner cs is hi _ ih => exact .instance' atts w h l inner _ hi ih

/-- `r'` continues `r` with these instances. -/
def ExtI (is : List (List Cmd)) (r r' : Rec) : Prop := ∃ cs, r'.cmds = r.cmds ++ cs ∧ Instances cs is

/-- `r'` continues `r` without instance. -/
abbrev Ext (r r' : Rec) : Prop := ExtI [] r r'

theorem ExtI.trans {i k : List (List Cmd)} {a b c : Rec} : ExtI i a b → ExtI k b c → ExtI (i ++ k) a c
  | ⟨x, hx, wx⟩, ⟨y, hy, wy⟩ => ⟨x ++ y, by rw [hy, hx, List.append_assoc], wx.append wy⟩
theorem Ext.same {r r' : Rec} (h : r'.cmds = r.cmds) : Ext r r' := ⟨[], by rw [h, List.append_nil], .nil⟩
theorem Ext.refl (r : Rec) : Ext r r := .same rfl
theorem Ext.trans {a b c : Rec} (h : Ext a b) (k : Ext b c) : Ext a c := ExtI.trans h k
theorem Ext.emit (r : Rec) (c : Cmd) (hb : Begins c = false := by rfl) (he : Ends c = false := by rfl) : Ext r (r.emit c) :=
  ⟨[c], rfl, .outside c [] [] hb he .nil⟩
theorem Ext.ctx {r r' : Rec} (c : Ctx) (h : Ext { r with ctx := c } r') : Ext r r' := h
theorem Ext.ctx' {r r' : Rec} (c : Ctx) (h : Ext r r') : Ext r { r' with ctx := c } := h

theorem ext_ite {c : Prop} [Decidable c] {r a b : Rec} (ha : Ext r a) (hb : Ext r b) : Ext r (if c then a else b) := by
  split
  · exact ha
  · exact hb

theorem ext_imageBarrier (env r img vt sub i w f) : Ext r (Rec.imageBarrier env r img vt sub i w f) := by
  unfold Rec.imageBarrier
  exact ext_ite (Ext.ctx' _ (Ext.emit r _ rfl rfl)) (.refl r)

theorem ext_viewBarrier (env r v i w f) : Ext r (Rec.viewBarrier env r v i w f) := ext_imageBarrier ..

theorem ext_bufferBarrier (r b o s i w f) : Ext r (Rec.bufferBarrier r b o s i w f) := by
  unfold Rec.bufferBarrier
  exact ext_ite (Ext.ctx' _ (Ext.emit r _ rfl rfl)) (.refl r)

theorem ext_finalBarrier (env r v f) : Ext r (Rec.finalBarrier env r v f) := by
  unfold Rec.finalBarrier; split
  · exact ext_viewBarrier ..
  · exact .refl r

theorem ext_doCopy (env r s d w h f) : Ext r (Rec.doCopy env r s d w h f) := by
  unfold Rec.doCopy
  exact ((((ext_viewBarrier ..).trans (ext_viewBarrier ..)).trans (Ext.emit _ _)).trans (ext_finalBarrier ..))

theorem ext_doBlit (env r s d a b c e f g h i j k) : Ext r (Rec.doBlit env r s d a b c e f g h i j k) := by
  unfold Rec.doBlit
  exact ((((ext_viewBarrier ..).trans (ext_viewBarrier ..)).trans (Ext.emit _ _)).trans (ext_finalBarrier ..))

theorem ext_doClear (env r d v f) : Ext r (Rec.doClear env r d v f) := by
  unfold Rec.doClear
  exact (((ext_viewBarrier ..).trans (Ext.emit _ _)).trans (ext_finalBarrier ..))

theorem ext_runImplicitN (env : Env) (n : Nat) : ∀ (r : Rec) (v : View), Ext r (Rec.runImplicitN env n r v) := by
  induction n with
  | zero => exact fun r v => .refl r
  | succ n ih =>
    intro r v
    unfold Rec.runImplicitN
    split
    · exact .refl r
    · rename_i t _
      generalize hr1 : ({ r with ctx := { r.ctx with implicit := r.ctx.implicit.eraseP (Implicit.isFor v) } } : Rec) = r1
      have h0 : Ext r r1 := .same (by rw [← hr1])
      refine h0.trans ?_
      show Ext r1 (if env.enabled t.pass then r1 else _)
      refine ext_ite (.refl r1) ?_
      split
      · exact .refl r1
      · exact Ext.emit _ _
      · exact Ext.trans (ih r1 _) (ext_doCopy env (Rec.runImplicitN env n r1 _) _ _ _ _ _)
      · exact Ext.trans (ih r1 _) (ext_doBlit env (Rec.runImplicitN env n r1 _) _ _ _ _ _ _ _ _ _ _ _ _)
      · exact ext_doClear ..

theorem ext_foldl {α : Type} (f : Rec → α → Rec) (h : ∀ r a, Ext r (f r a)) (l : List α) : ∀ r, Ext r (l.foldl f r) := by
  induction l with
  | nil => exact fun r => .refl r
  | cons a l ih => exact fun r => (h r a).trans (ih _)

theorem ext_foldOpt {α : Type} (f : Rec → α → Option Rec) (h : ∀ r a r', f r a = some r' → Ext r r') (l : List α) :
    ∀ r r', foldOpt f r l = some r' → Ext r r' := by
  induction l with
  | nil => intro r r' e; cases e; exact .refl r
  | cons a l ih =>
    intro r r' e
    unfold foldOpt at e
    split at e
    · cases e
    · rename_i r1 h1
      exact (h _ _ _ h1).trans (ih _ _ e)

theorem ext_recordImage (env G index) (r : Rec) (a : Attachment) (r' : Rec) (e : recordImage env G index r a = some r') :
    Ext r r' := by
  unfold recordImage at e
  split at e
  · cases e
  · rename_i v _
    refine (ext_runImplicitN env _ r v : Ext r (r.runImplicit env v)).trans ?_
    simp only at e
    split at e
    · split at e
      · injection e with e
        subst e
        exact Ext.trans (Ext.trans (Ext.ctx _ (ext_viewBarrier ..)) (Ext.emit _ _)) (ext_viewBarrier ..)
      · injection e with e
        subst e
        exact Ext.ctx _ (ext_viewBarrier ..)
    · injection e with e
      subst e
      exact .refl _

theorem ext_recordBuffer (compute index) (r : Rec) (a : Attachment) (r' : Rec)
    (e : recordBuffer compute index r a = some r') : Ext r r' := by
  unfold recordBuffer at e
  split at e
  · split at e
    · cases e
    · simp only at e
      split at e
      · injection e with e
        subst e
        exact Ext.trans (Ext.trans (ext_bufferBarrier ..) (Ext.emit _ _)) (ext_bufferBarrier ..)
      · injection e with e
        subst e
        exact ext_bufferBarrier ..
  · injection e with e
    subst e
    exact .refl _

theorem ext_prepare (env G p index) (r r' : Rec) (e : prepare env G p index r = some r') : Ext r r' := by
  unfold prepare at e
  split at e
  · cases e
  · rename_i r1 h1
    exact (ext_foldOpt _ (ext_recordImage env G index) _ _ _ h1).trans (ext_foldOpt _ (ext_recordBuffer _ _) _ _ _ e)

theorem ext_perform (sepDS : Bool) (r : Rec) (c : Call) : Ext r (perform sepDS r c) := by
  cases c with
  | barrier v i w f => exact ext_viewBarrier ..
  | buffer q => exact ext_bufferBarrier ..
  | register t => exact .refl r
  | use v en => exact ext_runImplicitN ..
  | work k => exact Ext.emit _ _

theorem ext_copyPairs (env size final index) : ∀ (n : Nat) (l : List Attachment), l.length ≤ n → ∀ (r r' : Rec),
    Xfer.copyPairs env size final index l r = some r' → Ext r r' := by
  intro n
  induction n with
  | zero =>
    intro l hl r r' e
    match l, hl with
    | [], _ => cases e; exact .refl r
  | succ n ih =>
    intro l hl r r' e
    match l, hl with
    | [], _ => cases e; exact .refl r
    | [_], _ => cases e
    | s :: t :: rest, hl =>
      unfold Xfer.copyPairs at e
      split at e
      · cases e
      · rename_i r1 h1
        refine Ext.trans ?_ (ih rest (by simp at hl; omega) _ _ e)
        unfold Xfer.copyPair at h1
        split at h1
        · injection h1 with h1
          subst h1
          exact (Ext.emit _ _).trans (ext_finalBarrier ..)
        · cases h1

theorem getD_cases {r : Rec} {o : Option Rec} (h : ∀ r', o = some r' → Ext r r') : Ext r (o.getD r) := by
  cases o with
  | none => exact .refl r
  | some r' => exact h _ rfl

theorem ext_levelStep (env img ty next layer r l) : Ext r (Mip.levelStep env img ty next layer r l) := by
  unfold Mip.levelStep
  refine Ext.trans (Ext.trans (Ext.trans (ext_imageBarrier ..) (Ext.emit _ _ rfl rfl)) (ext_imageBarrier ..))
    (ext_ite (ext_imageBarrier ..) (ext_imageBarrier ..))

theorem ext_mipmaps (env G p out v ty r) : Ext r (Mip.generateMipmaps env G p out v ty r) := by
  unfold Mip.generateMipmaps Mip.generate
  refine ext_foldl _ (fun r layer => ?_) _ r
  unfold Mip.layerStep
  exact Ext.trans (Ext.ctx _ (ext_imageBarrier ..)) (ext_foldl _ (fun r l => ext_levelStep ..) _ _)

theorem ext_recordPass (sepDS G w h) (p : RunPass) (cached : Option RPass.PassObj) (draw index) (r : Rec)
    (hv : ∀ a ∈ p.images, ∃ v, a.img.view index = some v) :
    ExtI [draw.map .user] r (((RPass.recordPass sepDS G w h p cached draw index r).map (·.2)).getD r) := by
  obtain ⟨o, c, e⟩ := Settle.fresh_some (sepDS := sepDS) (G := G) (w := w) (h := h) hv r.ctx
  unfold RPass.recordPass
  have hx : ∃ x, RPass.initialise sepDS G w h p index cached r.ctx = some x := by
    cases cached with
    | none => exact ⟨_, e⟩
    | some o' =>
      unfold RPass.initialise at e ⊢
      simp only at e ⊢
      split
      · exact ⟨_, rfl⟩
      · exact ⟨_, e⟩
  obtain ⟨o, hx⟩ := hx
  rw [hx]
  refine ⟨.beginPass o.1.atts o.1.width o.1.height o.1.layers :: (draw.map .user ++ .endPass o.1.atts :: []), ?_,
    .instance' _ _ _ _ _ _ _ ?_ .nil⟩
  · show ((r.cmds ++ [_]) ++ draw.map Cmd.user) ++ [_] = _
    simp
  · intro c hc
    obtain ⟨k, _, rfl⟩ := List.mem_map.mp hc
    rfl

/-- What a pass contributes. -/
def Of (d : Option (List Nat)) : List (List Cmd) := d.toList.map (·.map Cmd.user)

theorem ext_body {sepDS : Bool} {G : GraphSt} {p : RunPass} {d : Option (List Nat)} (h : Body sepDS G p d) (index : Nat)
    (hv : ∀ a ∈ p.images, ∃ v, a.img.view index = some v) (r : Rec) : ExtI (Of d) r (p.body index r) := by
  cases h with
  | draws cached w hh draw e =>
    rw [e]; exact ext_recordPass _ _ _ _ _ _ _ _ _ hv
  | copies en size final h =>
    rw [h]; exact getD_cases fun r' e => ext_copyPairs _ _ _ _ _ _ (Nat.le_refl _) _ _ e
  | blits a b c d f h =>
    rw [h]; refine getD_cases fun r' e => ?_
    unfold Xfer.imageBlit at e
    split at e
    · split at e
      · cases e; exact Ext.emit _ _
      · cases e
    · cases e
  | copiesBuffer a b h =>
    rw [h]; refine getD_cases fun r' e => ?_
    unfold Xfer.bufferCopy at e
    split at e
    · split at e
      · cases e
        exact ((((ext_bufferBarrier ..).trans (ext_bufferBarrier ..)).trans (Ext.emit _ _)).trans
          (ext_bufferBarrier ..)).trans (ext_bufferBarrier ..)
      · cases e
    · cases e
  | uploads a b h =>
    rw [h]; refine getD_cases fun r' e => ?_
    unfold Xfer.bufferToImage at e
    split at e
    · split at e
      · cases e; exact Ext.emit _ _
      · cases e
    · cases e
  | downloads a b h =>
    rw [h]; refine getD_cases fun r' e => ?_
    unfold Xfer.imageToBuffer at e
    split at e
    · split at e
      · cases e; exact Ext.emit _ _
      · cases e
    · cases e
  | mipmaps ty out h =>
    obtain ⟨en, e⟩ := h index r
    rw [e]
    split
    · split
      · exact ext_mipmaps ..
      · exact Ext.refl r
    · exact Ext.refl r
  | uses h =>
    obtain ⟨calls, e⟩ := h index r
    rw [e]
    exact ext_foldl _ (ext_perform sepDS) _ _

theorem ext_recordInto {env : Env} {G : GraphSt} {p : RunPass} {d : Option (List Nat)} (h : Body env.sepDS G p d)
    {index : Nat} {f f' : Frame} (e : recordInto env G p index f = some f') :
    ExtI (if env.enabled p.id then Of d else []) f.recd f'.recd := by
  have reg : ∀ r : Rec, Ext r (registerAll p r) := fun r =>
    ext_foldl _ (fun r (va : View × Action) => Ext.same (r' := r.register ⟨p.id, va.1, va.2⟩) rfl) _ r
  unfold recordInto at e
  split at e
  · rename_i hen
    rw [if_pos hen]
    split at e
    · simp only at e
      split at e
      · cases e
      · rename_i r1 h1
        injection e with e
        subst e
        have h2 := ext_prepare _ _ _ _ _ _ h1
        have h3 : Ext f.recd r1 := by
          split at h2
          · exact h2
          · exact h2
        have h4 := (ExtI.trans h3 (ext_body h index (Settle.prepare_views h1) r1)).trans (reg _)
        rwa [List.append_nil] at h4
    · cases e
  · rename_i hen
    rw [if_neg hen]
    injection e with e
    subst e
    exact reg _

theorem ext_recordLoop {env : Env} {G : GraphSt} (index : Nat → Nat) {D : RunPass → Option (List Nat)} :
    ∀ (passes : List RunPass) (_ : ∀ p ∈ passes, Body env.sepDS G p (D p)) (f f' : Frame),
    recordLoop env G index passes f = some f' →
    ExtI (((passes.filter fun p => env.enabled p.id).filterMap D).map (·.map Cmd.user)) f.recd f'.recd := by
  intro passes
  induction passes with
  | nil => intro _ f f' e; cases e; exact Ext.refl _
  | cons p ps ih =>
    intro h f f' e
    unfold recordLoop at e
    simp only at e
    split at e
    · cases e
    · rename_i f1 h1
      have h2 : ExtI _ f.recd f1.recd := (ext_recordInto (h p List.mem_cons_self) h1 : ExtI _ _ f1.recd)
      have h3 := h2.trans (ih (fun q hq => h q (List.mem_cons_of_mem _ hq)) _ _ e)
      have : ((List.filter (fun p => env.enabled p.id) (p :: ps)).filterMap D).map (·.map Cmd.user)
          = (if env.enabled p.id then Of (D p) else []) ++ ((ps.filter fun p => env.enabled p.id).filterMap D).map (·.map Cmd.user) := by
        cases he : env.enabled p.id with
        | false => simp [he]
        | true => cases hd : D p <;> simp [he, hd, Of]
      rw [this]
      exact h3

/-- C85: whatever the passes, the attachments, the passes enabled, the state of the graph and of its dependencies, the
indices and the render pass objects kept from earlier frames: the commands recorded for a frame are well formed, and the
render pass instances are those of the enabled drawing passes, in their order, each with the draws of its pass, all of them
and nothing else. -/
theorem frame_instances_partial {env : Env} {G G' : GraphSt} {deps : List Ctx} {index : Nat → Nat} {passes : List RunPass}
    {ini : Nat → Nat → Bool} {log : List Event} {f : Frame} {draws : RunPass → Option (List Nat)}
    (h : ∀ p ∈ passes, Body env.sepDS G p (draws p)) (e : record env G deps index passes ini log = some (G', f)) :
    Instances f.recd.cmds (((passes.filter fun p => env.enabled p.id).filterMap draws).map (·.map Cmd.user)) := by
  unfold record at e
  simp only at e
  split at e
  · cases e
  · rename_i f1 h1
    cases e
    obtain ⟨cs, h2, w⟩ := ext_recordLoop index passes h _ _ h1
    rw [h2]
    exact w

/-- C85: render pass instances don't nest, each is ended by the end of the same render pass, and holds only commands of the
pass's callback. -/
theorem frame_well_formed_partial {env : Env} {G G' : GraphSt} {deps : List Ctx} {index : Nat → Nat} {passes : List RunPass}
    {ini : Nat → Nat → Bool} {log : List Event} {f : Frame} {draws : RunPass → Option (List Nat)}
    (h : ∀ p ∈ passes, Body env.sepDS G p (draws p)) (e : record env G deps index passes ini log = some (G', f)) :
    WellFormed f.recd.cmds := (frame_instances_partial h e).wellFormed

theorem begun_append (a b) : begun (a ++ b) = begun a + begun b := by simp [begun]
theorem ended_append (a b) : ended (a ++ b) = ended a + ended b := by simp [ended]
theorem inner_zero {inner : List Cmd} (hi : ∀ c ∈ inner, Inside c = true) : begun inner = 0 ∧ ended inner = 0 := by
  have hb : ∀ c ∈ inner, Begins c = false ∧ Ends c = false := by
    intro c hc
    have := hi c hc
    cases c <;> simp_all [Inside, Begins, Ends]
  constructor
  · simp only [begun, List.length_eq_zero_iff, List.filter_eq_nil_iff]
    intro c hc; rw [(hb c hc).1]; decide
  · simp only [ended, List.length_eq_zero_iff, List.filter_eq_nil_iff]
    intro c hc; rw [(hb c hc).2]; decide

/-- What well formed means at each command: as many instances are ended as begun before a begin and before any command not
allowed inside; one more is begun before an end; all are ended in the end. -/
theorem WellFormed.counts {cs : List Cmd} (h : WellFormed cs) :
    begun cs = ended cs ∧ ∀ pre c post, cs = pre ++ c :: post →
      (Ends c = true → begun pre = ended pre + 1) ∧
      (Ends c = false → Inside c = false → begun pre = ended pre) ∧
      ended pre ≤ begun pre ∧ begun pre ≤ ended pre + 1 := by
  induction h with
  | nil => exact ⟨rfl, fun pre c post e => by cases pre <;> cases e⟩
  | outside c cs hb he _ ih =>
    have b1 : begun (c :: cs) = begun cs := by simp [begun, hb]
    have e1 : ended (c :: cs) = ended cs := by simp [ended, he]
    refine ⟨by rw [b1, e1]; exact ih.1, fun pre d post e => ?_⟩
    cases pre with
    | nil =>
      injection e with e1 e2
      subst e1
      refine ⟨(fun h => by rw [he] at h; cases h), fun _ _ => rfl, Nat.le_refl _, Nat.le_succ _⟩
    | cons x pre =>
      injection e with e1 e2
      subst e1
      have b2 : begun (c :: pre) = begun pre := by simp [begun, hb]
      have e3 : ended (c :: pre) = ended pre := by simp [ended, he]
      rw [b2, e3]
      exact ih.2 pre d post e2
  | instance' atts w h l inner cs hi _ ih =>
    obtain ⟨i1, i2⟩ := inner_zero hi
    have bB : ∀ xs, begun (Cmd.beginPass atts w h l :: xs) = begun xs + 1 := fun xs => rfl
    have bE : ∀ xs, ended (Cmd.beginPass atts w h l :: xs) = ended xs := fun xs => rfl
    have eB : ∀ xs, begun (Cmd.endPass atts :: xs) = begun xs := fun xs => rfl
    have eE : ∀ xs, ended (Cmd.endPass atts :: xs) = ended xs + 1 := fun xs => rfl
    refine ⟨?_, fun pre c post e => ?_⟩
    · rw [bB, bE, begun_append, ended_append, eB, eE, i1, i2]
      have := ih.1; omega
    · cases pre with
      | nil =>
        injection e with e1 e2
        subst e1
        exact ⟨(fun h => by cases h), fun _ _ => rfl, Nat.le_refl _, Nat.le_succ _⟩
      | cons x pre =>
        injection e with e1 e2
        subst e1
        rw [bB, bE]
        rcases List.append_eq_append_iff.mp e2 with ⟨as, h1, h2⟩ | ⟨bs, h1, h2⟩
        · -- pre = inner ++ as
          cases as with
          | nil =>
            injection h2 with h3 h4
            subst h3
            rw [List.append_nil] at h1
            subst h1
            rw [i1, i2]
            exact ⟨fun _ => rfl, (fun h => by cases h), Nat.zero_le _, Nat.le_refl _⟩
          | cons y as =>
            injection h2 with h3 h4
            subst h3 h1
            rw [begun_append, ended_append, eB, eE, i1, i2]
            have := ih.2 as c post h4
            refine ⟨fun h => ?_, fun h h' => ?_, ?_, ?_⟩
            · have := this.1 h; omega
            · have := this.2.1 h h'; omega
            · have := this.2.2; omega
            · have := this.2.2; omega
        · -- inner = pre ++ bs
          cases bs with
          | nil =>
            injection h2 with h3 h4
            subst h3
            rw [List.append_nil] at h1
            subst h1
            rw [i1, i2]
            exact ⟨fun _ => rfl, (fun h => by cases h), Nat.zero_le _, Nat.le_refl _⟩
          | cons y bs =>
            injection h2 with h3 h4
            subst h3 h1
            have hp := inner_zero (inner := pre) (fun d hd => hi d (List.mem_append_left _ hd))
            have hc := hi c (List.mem_append_right _ List.mem_cons_self)
            rw [hp.1, hp.2]
            refine ⟨fun h => ?_, (fun _ h => by rw [hc] at h; cases h), Nat.zero_le _, Nat.le_refl _⟩
            cases c <;> simp_all [Inside, Ends]

/-- C85, read at each command of the frame: barriers, copies, blits, clears and fills, and the begin of a render pass, are
recorded outside of any instance; the end of a render pass inside one; no instance is left open. -/
theorem frame_commands_placed_partial {env : Env} {G G' : GraphSt} {deps : List Ctx} {index : Nat → Nat}
    {passes : List RunPass} {ini : Nat → Nat → Bool} {log : List Event} {f : Frame}
    {draws : RunPass → Option (List Nat)} (h : ∀ p ∈ passes, Body env.sepDS G p (draws p)) (e : record env G deps index passes ini log = some (G', f)) :
    begun f.recd.cmds = ended f.recd.cmds ∧ ∀ pre c post, f.recd.cmds = pre ++ c :: post →
      (Ends c = true → begun pre = ended pre + 1) ∧
      (Ends c = false → Inside c = false → begun pre = ended pre) ∧
      ended pre ≤ begun pre ∧ begun pre ≤ ended pre + 1 :=
  (frame_well_formed_partial h e).counts

/-- What the passes of the example draw. -/
def exampleDraws (p : RunPass) : Option (List Nat) := if p.id = 1 then some [1] else if p.id = 2 then some [2] else none

theorem example_bodies : ∀ p ∈ RPass.aPasses Run.xG none, Body false Run.xG p (exampleDraws p) := by
  intro p hp
  have hp : p = RPass.RunPass.drawing false Run.xG RPass.aFirst none [1]
      ∨ p = RPass.RunPass.drawing false Run.xG RPass.aBlend none [2] ∨ p = RPass.aSample := by
    simpa [RPass.aPasses] using hp
  rcases hp with rfl | rfl | rfl
  · exact .draws (fun _ => none) 64 64 [1] fun index r => rfl
  · exact .draws (fun _ => none) 64 64 [2] fun index r => rfl
  · exact .uses fun index r => ⟨[], rfl⟩

/-- C85 is met by a frame with two drawing passes, each with its own instance, and a barrier after them. -/
example : ∃ G' f, RPass.frameOf Run.xG (RPass.aPasses Run.xG none) (fun _ => true) = some (G', f)
    ∧ Instances f.recd.cmds [[.user 1], [.user 2]] ∧ begun f.recd.cmds = 2 := by
  have h : ((RPass.frameOf Run.xG (RPass.aPasses Run.xG none) fun _ => true).map fun x => begun x.2.recd.cmds) = some 2 := by
    decide +kernel
  obtain ⟨x, e, hx⟩ := Option.map_eq_some_iff.1 h
  exact ⟨x.1, x.2, e, frame_instances_partial (draws := exampleDraws) example_bodies e, hx⟩

end Verif.Brk
