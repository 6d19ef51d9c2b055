import Verif.Props.RenderPass
import Verif.Props.Contents
/-
C68: what render targets and clearable storage images hold when a pass starts.
-/
namespace Verif.RPass
open Verif.Rec Verif.Att Verif.Run Verif.Gpu Verif.Xfer

/-! ### Specification -/

/-- The byte is one of the view, in an aspect of it, that the render pass draws to: in its first level, in the render area and
in the layers of the framebuffer. -/
def InArea (o : PassObj) (v : View) (c : Cell) : Prop :=
  c.InView v ∧ v.range.aspect.testBit c.aspect = true ∧ c.level = v.range.baseMip ∧ c.layer < v.range.baseLayer + o.layers
    ∧ 0 ≤ c.x ∧ c.x < o.width ∧ 0 ≤ c.y ∧ c.y < o.height ∧ c.z = 0

/-- The load operation of the aspect: stencil (bit 2) has its own. -/
def loadOpFor (a : Attachment) (aspect : Nat) : Nat := if aspect = 2 then a.img.stencilLoadOp else a.img.loadOp
/-- The store operation of the aspect. -/
def storeOpFor (a : Attachment) (aspect : Nat) : Nat := if aspect = 2 then a.img.stencilStoreOp else a.img.storeOp

/-! ### Lemmas -/

theorem findSome_eq {α β : Type} {f : α → Option β} {b : Option β} : ∀ {l : List α},
    (∀ x ∈ l, f x = none ∨ f x = b) → (∃ x ∈ l, f x = b) → l.findSome? f = b
  | [], _, h => by simp at h
  | x :: l, h1, h2 => by
    rw [List.findSome?_cons]
    cases hx : f x with
    | some y =>
      rcases h1 x (by simp) with h | h
      · rw [hx] at h; simp at h
      · rw [← h, hx]
    | none =>
      simp only
      by_cases hb : ∃ y ∈ l, f y = b
      · exact findSome_eq (fun y hy => h1 y (by simp [hy])) hb
      · obtain ⟨y, hy, e⟩ := h2
        rcases List.mem_cons.1 hy with rfl | hy
        · rw [← e, hx]
          rw [List.findSome?_eq_none_iff]
          intro z hz
          rcases h1 z (by simp [hz]) with h | h
          · exact h
          · exact absurd ⟨z, hz, h⟩ hb
        · exact absurd ⟨y, hy, e⟩ hb

variable {sepDS : Bool} {fmt : Nat → Nat} {V : View → Prop} {passes : List RunPass} {g0 : Layouts} {G : GraphSt}

/-- The box of an attachment, when it is as large as the framebuffer. -/
theorem inBox_area {o : PassObj} {v : View} (hne : v.range.NonEmpty) (hf : o.layers ≤ v.range.layers) (c : Cell) :
    c.InBox v.image.id { v.range with layers := o.layers } 0 0 0 o.width o.height 1 ↔ InArea o v c := by
  unfold Cell.InBox InArea Cell.InView Range.Has
  simp only
  have := hne.2
  constructor
  · rintro ⟨h1, h2, h3, h4, h5, h6⟩
    exact ⟨⟨h1, by omega⟩, h2, h3, h5, by omega⟩
  · rintro ⟨⟨h1, h2⟩, h3, h4, h5, h6⟩
    exact ⟨h1, h3, h4, by omega, h5, by omega⟩

/-- The attachments of the render pass, by target. -/
theorem att_of {o : PassObj} {ts : List (Attachment × View)} (ho : Corresponds sepDS o ts) {x : PassAtt} (hx : x ∈ o.atts) :
    ∃ k av d, ts[k]? = some av ∧ o.descs[k]? = some d ∧ x = o.att k d av.2 := by
  obtain ⟨k, d, v, h1, h2, rfl⟩ := mem_atts.1 hx
  rw [ho.views, List.getElem?_map] at h2
  obtain ⟨av, h3, rfl⟩ := Option.map_eq_some_iff.1 h2
  exact ⟨k, av, d, h3, h1, rfl⟩

theorem att_mem {o : PassObj} {ts : List (Attachment × View)} (ho : Corresponds sepDS o ts) {k : Nat} {av : Attachment × View}
    {d : Desc} (hk : ts[k]? = some av) (hd : o.descs[k]? = some d) : o.att k d av.2 ∈ o.atts :=
  mem_atts.2 ⟨k, d, av.2, hd, by rw [ho.views, List.getElem?_map, hk]; rfl, rfl⟩

theorem att_clears {o : PassObj} {ts : List (Attachment × View)} (ho : Corresponds sepDS o ts) {k : Nat}
    {av : Attachment × View} {d : Desc} (hk : ts[k]? = some av) (c : Cell) :
    (if c.aspect = 2 then (o.att k d av.2).clearsStencil else (o.att k d av.2).clears)
      = if (if c.aspect = 2 then d.stencilLoadOp else d.loadOp) = LoadOp.clear then some av.1.img.clearValue else none := by
  unfold PassObj.att
  simp only
  have : o.clears[k]?.getD 0 = av.1.img.clearValue := by
    rw [ho.clears, List.getElem?_map, hk]; rfl
  rw [this]
  split <;> rfl

/-- What the start of a render pass does to a byte of a target in the render area. -/
theorem begin_target (hT : TidyViews sepDS fmt V passes) {p : RunPass} (hp : p ∈ passes) {index : Nat} {o : PassObj}
    {ts : List (Attachment × View)} (hts : Targets p index ts) (ho : Corresponds sepDS o ts)
    (hf : ∀ av ∈ ts, o.layers ≤ av.2.range.layers) {k : Nat} {av : Attachment × View} {d : Desc} (hk : ts[k]? = some av)
    (hd : o.descs[k]? = some d) {c : Cell} (hc : InArea o av.2 c) (dev : Device) (M : Memory) :
    (step dev M (.beginPass o.atts o.width o.height o.layers)).image c =
      if (if c.aspect = 2 then d.stencilLoadOp else d.loadOp) = LoadOp.clear then dev.clear av.1.img.clearValue c
      else if d.initial = Layout.undefined ∨ (if c.aspect = 2 then (o.att k d av.2).loadsStencil else (o.att k d av.2).loads) = false
        then dev.junk c else M.image c := by
  have hne : ∀ bw ∈ ts, bw.2.range.NonEmpty := by
    intro bw hbw
    have h1 : bw.1 ∈ p.images.filter isTarget := by
      rw [← hts.all]; exact List.mem_map_of_mem hbw
    exact (hT.attached bw.2 ⟨p, hp, bw.1, (List.mem_filter.1 h1).1, view_mem (hts.view bw hbw)⟩).2
  have hav := List.mem_of_getElem? hk
  have huniq : ∀ x ∈ o.atts, (x.image = c.image ∧ x.range.Has c.layer c.level) → x = o.att k d av.2 := by
    intro x hx hh
    obtain ⟨j, bw, d', h1, h2, rfl⟩ := att_of ho hx
    have : k = j := target_unique hT hp hts hk h1 (hc.1.1.symm.trans hh.1.symm) hc.1.2 hh.2
    subst this
    rw [hk] at h1
    cases h1
    rw [hd] at h2
    cases h2
    rfl
  have hfind : o.atts.findSome? (clearedTo o.width o.height o.layers c)
      = if (if c.aspect = 2 then d.stencilLoadOp else d.loadOp) = LoadOp.clear then some av.1.img.clearValue else none := by
    have hthis : clearedTo o.width o.height o.layers c (o.att k d av.2)
        = if (if c.aspect = 2 then d.stencilLoadOp else d.loadOp) = LoadOp.clear then some av.1.img.clearValue else none := by
      rw [← att_clears ho hk c]
      unfold clearedTo
      exact if_pos ((inBox_area (hne av hav) (hf av hav) c).2 hc)
    refine findSome_eq ?_ ⟨_, att_mem ho hk hd, hthis⟩
    intro x hx
    by_cases hb : c.InBox x.image { x.range with layers := o.layers } 0 0 0 o.width o.height 1
    · right
      rw [← hthis]
      congr 1
      obtain ⟨j, bw, d', h1, h2, rfl⟩ := att_of ho hx
      have hbw := List.mem_of_getElem? h1
      have := (inBox_area (hne bw hbw) (hf bw hbw) c).1 hb
      exact huniq _ hx ⟨this.1.1.symm, this.1.2⟩
    · left
      unfold clearedTo
      exact if_neg hb
  simp only [step]
  rw [hfind]
  by_cases hcl : (if c.aspect = 2 then d.stencilLoadOp else d.loadOp) = LoadOp.clear
  · rw [if_pos hcl, if_pos hcl]
  · rw [if_neg hcl, if_neg hcl]
    simp only [forget]
    congr 1
    apply propext
    unfold Discards
    constructor
    · rintro ⟨x, hx, hof, h⟩
      rw [huniq x hx ⟨hof.1, hof.2.2⟩] at h
      exact h
    · intro h
      exact ⟨_, att_mem ho hk hd, ⟨hc.1.1.symm, hc.2.1, hc.1.2⟩, h⟩

/-- The start and the end of a render pass leave everything that is in no target. -/
theorem pass_others {o : PassObj} {p : RunPass} {index : Nat} {ts : List (Attachment × View)} (hT : TidyViews sepDS fmt V passes)
    (hp : p ∈ passes) (hts : Targets p index ts) (ho : Corresponds sepDS o ts)
    (hf : ∀ av ∈ ts, o.layers ≤ av.2.range.layers) {c : Cell} (hc : ∀ av ∈ ts, ¬ c.InView av.2) (dev : Device) (M : Memory) :
    (step dev M (.beginPass o.atts o.width o.height o.layers)).image c = M.image c
    ∧ (step dev M (.endPass o.atts)).image c = M.image c := by
  have hof : ∀ x ∈ o.atts, ¬ (x.image = c.image ∧ x.range.Has c.layer c.level) := by
    intro x hx hh
    obtain ⟨j, bw, d', h1, h2, rfl⟩ := att_of ho hx
    exact hc bw (List.mem_of_getElem? h1) ⟨hh.1.symm, hh.2⟩
  constructor
  · refine step_keeps (k := .beginPass o.atts o.width o.height o.layers) (dev := dev) ?_ ?_ M
    · rintro ⟨x, hx, h, -⟩
      exact hof x hx ⟨h.1, h.2.2⟩
    · rintro ⟨v, hv⟩
      obtain ⟨x, hx, hxv⟩ := List.exists_of_findSome?_eq_some hv
      unfold clearedTo at hxv
      split at hxv
      · rename_i hb
        obtain ⟨j, bw, d', h1, h2, rfl⟩ := att_of ho hx
        have hbw := List.mem_of_getElem? h1
        have h3 : bw.1 ∈ p.images.filter isTarget := by
          rw [← hts.all]; exact List.mem_map_of_mem hbw
        have hne := (hT.attached bw.2 ⟨p, hp, bw.1, (List.mem_filter.1 h3).1, view_mem (hts.view bw hbw)⟩).2
        exact hc bw hbw ((inBox_area hne (hf bw hbw) c).1 hb).1
      · simp at hxv
  · refine step_keeps (k := .endPass o.atts) (dev := dev) ?_ (fun h => h) M
    rintro ⟨x, hx, h, -⟩
    exact hof x hx ⟨h.1, h.2.2⟩

/-! ### C68 -/

/-- C68, render targets (partial: only in the render area, and if it is within each target, see `area_exceeds_smaller`; a target
whose layout isn't known is cleared even if declared as loaded, see `unknown_input_cleared`). When a render pass begins, in
each of its targets the render area holds: the declared clear value, if the target is only an output or declared as cleared;
what it held, if it is declared as loaded and its layout is known. Aspects have their own load operations. Nothing else
changes. -/
theorem targets_cleared_partial (hT : TidyViews sepDS fmt V passes) {p : RunPass} (hp : p ∈ passes) {index : Nat} {o : PassObj}
    {ts : List (Attachment × View)} (hts : Targets p index ts) (ho : Corresponds sepDS o ts) (hf : FramebufferFits o)
    (dev : Device) (M M' : Memory) (hM : M' = step dev M (.beginPass o.atts o.width o.height o.layers)) :
    (∀ (k : Nat) (av : Attachment × View) (en : Entry), ts[k]? = some av → o.entries[k]? = some en → ∀ c, InArea o av.2 c →
      (loadOpFor av.1 c.aspect = LoadOp.clear → M'.image c = dev.clear av.1.img.clearValue c)
      ∧ (c.aspect ≠ 2 → en.input.layout = Layout.undefined ∨ av.1.isInput = false →
          M'.image c = dev.clear av.1.img.clearValue c)
      ∧ (loadOpFor av.1 c.aspect = LoadOp.load → en.input.layout ≠ Layout.undefined →
          (c.aspect = 2 → (aspects av.2.format).testBit 2 = true) → M'.image c = M.image c))
    ∧ (∀ c, (∀ av ∈ ts, ¬ c.InView av.2) → M'.image c = M.image c)
    ∧ M'.buffer = M.buffer := by
  subst hM
  have hf' : ∀ av ∈ ts, o.layers ≤ av.2.range.layers := by
    intro av hav
    exact (hf av.2 (by rw [ho.views]; exact List.mem_map_of_mem hav)).2.2
  refine ⟨?_, fun c hc => (pass_others hT hp hts ho hf' hc dev M).1, rfl⟩
  intro k av en hk hen c hc
  obtain ⟨en', d, g1, g2, g3, g4, g5, g6, g7, g8, g9, g10, g11, g12⟩ := ho.at' k av hk
  rw [hen] at g1
  cases g1
  rw [begin_target hT hp hts ho hf' hk g2 hc dev M]
  have hload : ∀ x, LoadOp.load = x → x = LoadOp.clear → False := by
    rintro x rfl h; exact absurd h (by decide)
  refine ⟨?_, ?_, ?_⟩
  · intro hl
    rw [if_pos]
    unfold loadOpFor at hl
    split
    · rename_i h2; rw [if_pos h2] at hl; rw [g9]; exact hl
    · rename_i h2
      rw [if_neg h2] at hl
      rw [g7, hl]; split <;> rfl
  · intro h2 hu
    have hu : en.input.layout = Layout.undefined := hu.elim id g11
    rw [if_neg h2, if_pos (by rw [g7, if_pos hu])]
  · intro hl hu hst
    unfold loadOpFor at hl
    by_cases h2 : c.aspect = 2
    · simp only [h2, if_true] at hl ⊢
      rw [if_neg (by rw [g9, hl]; decide), if_neg]
      rintro (h | h)
      · exact hu (g5 ▸ h)
      · unfold PassObj.att at h
        simp only [g9, hl, beq_self_eq_true, Bool.true_and] at h
        rw [g4, getAspectMask_eq, hst h2] at h
        simp at h
    · simp only [h2, if_false] at hl ⊢
      have hd : d.loadOp = LoadOp.load := by rw [g7, if_neg hu, hl]
      rw [if_neg (by rw [hd]; decide), if_neg]
      rintro (h | h)
      · exact hu (g5 ▸ h)
      · unfold PassObj.att at h
        simp [hd] at h

/-- The end of a render pass keeps what is drawn to the targets whose store operation says so, and may lose the others. -/
theorem targets_stored (hT : TidyViews sepDS fmt V passes) {p : RunPass} (hp : p ∈ passes) {index : Nat} {o : PassObj}
    {ts : List (Attachment × View)} (hts : Targets p index ts) (ho : Corresponds sepDS o ts)
    (hf : FramebufferFits o) (dev : Device) (M M' : Memory) (hM : M' = step dev M (.endPass o.atts)) :
    (∀ (k : Nat) (av : Attachment × View), ts[k]? = some av → ∀ c, c.InView av.2 → av.2.range.aspect.testBit c.aspect = true →
      M'.image c = if storeOpFor av.1 c.aspect = StoreOp.store then M.image c else dev.junk c)
    ∧ (∀ c, (∀ av ∈ ts, ¬ c.InView av.2) → M'.image c = M.image c)
    ∧ M'.buffer = M.buffer := by
  subst hM
  have hf' : ∀ av ∈ ts, o.layers ≤ av.2.range.layers := by
    intro av hav
    exact (hf av.2 (by rw [ho.views]; exact List.mem_map_of_mem hav)).2.2
  refine ⟨?_, fun c hc => (pass_others hT hp hts ho hf' hc dev M).2, rfl⟩
  intro k av hk c hv ha
  obtain ⟨en', d, g1, g2, g3, g4, g5, g6, g7, g8, g9, g10, g11, g12⟩ := ho.at' k av hk
  simp only [step, forget]
  have hiff : Discards (.endPass o.atts) c ↔ ¬ storeOpFor av.1 c.aspect = StoreOp.store := by
    unfold Discards
    constructor
    · rintro ⟨x, hx, hof, h⟩
      obtain ⟨j, bw, d', h1, h2, rfl⟩ := att_of ho hx
      have : k = j := target_unique hT hp hts hk h1 (hv.1.symm.trans hof.1.symm) hv.2 hof.2.2
      subst this
      rw [hk] at h1
      cases h1
      rw [g2] at h2
      cases h2
      unfold PassObj.att at h
      unfold storeOpFor
      simp only [g8, g10] at h
      intro he
      split at h <;> rename_i h2 <;> simp [h2] at he <;> simp [he] at h
    · intro h
      refine ⟨_, att_mem ho hk g2, ⟨hv.1.symm, ha, hv.2⟩, ?_⟩
      unfold PassObj.att
      simp only [g8, g10]
      unfold storeOpFor at h
      split <;> rename_i h2 <;> simp [h2] at h <;> simp [h]
  by_cases hs : storeOpFor av.1 c.aspect = StoreOp.store
  · rw [if_pos hs, if_neg (fun h => hiff.1 h hs)]
  · rw [if_neg hs, if_pos (hiff.2 hs)]

/-- The entries of a new object: a target that isn't an input starts from UNDEFINED, another from the state the graph knows. -/
theorem made_entries (hT : TidyViews sepDS fmt V passes) {p : RunPass} (hp : p ∈ passes) {index w h : Nat} {c c' : Ctx}
    {o : PassObj} {ts : List (Attachment × View)} (hts : Targets p index ts)
    (e : initialise sepDS G w h p index none c = some (o, true, c')) : o.entries = ts.map (entryOf sepDS G c p) := by
  obtain ⟨q1, q2, f1, f2, f3⟩ := initialise_new e
  obtain ⟨us, u1, u2, u3, u4, u5, u6⟩ := createAll_ctx hT hp p.images (fun _ h => h) (hT.apart p hp index) _ _ _ _ f1
  have hus : ts = us := targets_eq (p := p) (by rw [hts.all, u1]) hts.view u2
  subst hus
  have h1 := (area_keeps f2).2.1
  unfold framebuffer at f3
  rw [mapM_views ts _ u1 u2] at f3
  simp only [Option.map_some, Option.some.injEq] at f3
  subst f3
  simp only at h1 ⊢
  rw [h1, u6]
  rfl

/-- C68 for a whole pass that draws with a new render pass object (partial: see `targets_cleared_partial`; with an object made
by an earlier frame, see `reuse_clears_again`). The commands recorded are the start of the render pass, the draws, the end.
At the start, in the render area, a target that is only an output holds its declared clear value, one that is loaded and whose
layout is tracked, declared by an input or known from the previous execution, holds what it held. At the end what was drawn
stays in the targets that are stored. Nothing else changes but what the draws change. -/
theorem drawing_contents_partial (hT : TidyViews sepDS fmt V passes) {p : RunPass} (hp : p ∈ passes) (hD : Declares sepDS p)
    {index w h : Nat} {draw : List Nat} {r r' : Rec} {o : PassObj}
    (e : recordPass sepDS G w h p none draw index r = some (o, r')) (hf : FramebufferFits o) :
    ∃ ts start stop, Targets p index ts ∧ r'.cmds = r.cmds ++ (start :: (draw.map .user ++ [stop])) ∧
    (∀ dev M, (∀ av ∈ ts, ∀ c, InArea o av.2 c →
        (av.1.isInput = false → c.aspect ≠ 2 ∨ av.1.img.stencilLoadOp = LoadOp.clear →
          (step dev M start).image c = dev.clear av.1.img.clearValue c)
        ∧ (av.1.isInput = true → (getCurrentLayoutState G r.ctx av.2).1.layout ≠ Layout.undefined →
          loadOpFor av.1 c.aspect = LoadOp.load → (c.aspect = 2 → (aspects av.2.format).testBit 2 = true) →
          (step dev M start).image c = M.image c))
      ∧ (∀ av ∈ ts, ∀ c, c.InView av.2 → av.2.range.aspect.testBit c.aspect = true → storeOpFor av.1 c.aspect = StoreOp.store →
        (step dev M stop).image c = M.image c)
      ∧ (∀ c, (∀ av ∈ ts, ¬ c.InView av.2) → (step dev M start).image c = M.image c ∧ (step dev M stop).image c = M.image c)
      ∧ (step dev M start).buffer = M.buffer ∧ (step dev M stop).buffer = M.buffer) := by
  unfold recordPass at e
  cases e0 : initialise sepDS G w h p index none r.ctx with
  | none => rw [e0] at e; simp at e
  | some obc =>
    obtain ⟨o1, b, c'⟩ := obc
    rw [e0] at e
    simp only [Option.map_some, Option.some.injEq, Prod.mk.injEq] at e
    obtain ⟨rfl, rfl⟩ := e
    have hb : b = true := by
      rcases initialise_cases e0 with ⟨-, h1, -⟩ | ⟨h1, -⟩
      · simp at h1
      · exact h1
    subst hb
    obtain ⟨ts, hts, ho⟩ := parts_correspond hD ⟨G, r.ctx, c', w, h, e0⟩
    have hent := made_entries hT hp hts e0
    refine ⟨ts, .beginPass o1.atts o1.width o1.height o1.layers, .endPass o1.atts, hts, ?_, ?_⟩
    · show ((r.cmds ++ [_]) ++ draw.map .user) ++ [_] = _
      simp
    · intro dev M
      obtain ⟨t1, t2, t3⟩ := targets_cleared_partial hT hp hts ho hf dev M _ rfl
      obtain ⟨s1, s2, s3⟩ := targets_stored hT hp hts ho hf dev M _ rfl
      refine ⟨?_, ?_, fun c hc => ⟨t2 c hc, s2 c hc⟩, t3, s3⟩
      · intro av hav c hc
        obtain ⟨k, hk⟩ := List.getElem?_of_mem hav
        have hen : o1.entries[k]? = some (entryOf sepDS G r.ctx p av) := by
          rw [hent, List.getElem?_map, hk]; rfl
        obtain ⟨q1, q2, q3⟩ := t1 k av _ hk hen c hc
        refine ⟨?_, ?_⟩
        · intro hi ha
          by_cases h2 : c.aspect = 2
          · exact q1 (by unfold loadOpFor; rw [if_pos h2]; exact ha.resolve_left (fun h => h h2))
          · exact q2 h2 (Or.inr hi)
        · intro hi hcur hl h2
          refine q3 hl ?_ h2
          unfold entryOf
          simp only [hi, Bool.not_true, Bool.false_eq_true, if_false]
          exact hcur
      · intro av hav c hv ha hst
        obtain ⟨k, hk⟩ := List.getElem?_of_mem hav
        rw [s1 k av hk c hv ha, if_pos hst]

/-- What the methods of a pass declare about the contents of its targets: the outputs are cleared with the given value and
stored, the inputs are loaded, those that are both are loaded and stored. -/
theorem declared_contents (pass binding : Nat) (views : List View) (clear blend : Nat) :
    (∀ m : ImageAdder, m = .outputColour ∨ m = .outputDepth ∨ m = .outputDepthStencil →
      (m.attach pass binding views clear blend).isInput = false
      ∧ (m.attach pass binding views clear blend).img.clearValue = clear
      ∧ (m.attach pass binding views clear blend).img.storeOp = StoreOp.store)
    ∧ (∀ m : ImageAdder, m = .outputStencil ∨ m = .outputDepthStencil →
      (m.attach pass binding views clear blend).isInput = false
      ∧ (m.attach pass binding views clear blend).img.clearValue = clear
      ∧ (m.attach pass binding views clear blend).img.stencilLoadOp = LoadOp.clear
      ∧ (m.attach pass binding views clear blend).img.stencilStoreOp = StoreOp.store)
    ∧ (∀ m : ImageAdder, m = .inputColour ∨ m = .inOutColour ∨ m = .inputDepth ∨ m = .inOutDepth ∨ m = .inputDepthStencil
        ∨ m = .inOutDepthStencil →
      (m.attach pass binding views clear blend).isInput = true
      ∧ (m.attach pass binding views clear blend).img.loadOp = LoadOp.load)
    ∧ (∀ m : ImageAdder, m = .inputStencil ∨ m = .inOutStencil ∨ m = .inputDepthStencil ∨ m = .inOutDepthStencil →
      (m.attach pass binding views clear blend).isInput = true
      ∧ (m.attach pass binding views clear blend).img.stencilLoadOp = LoadOp.load)
    ∧ (∀ m : ImageAdder, m = .inOutColour ∨ m = .inOutDepth ∨ m = .inOutDepthStencil →
      (m.attach pass binding views clear blend).img.storeOp = StoreOp.store)
    ∧ (∀ m : ImageAdder, m = .inOutStencil ∨ m = .inOutDepthStencil →
      (m.attach pass binding views clear blend).img.stencilStoreOp = StoreOp.store)
    ∧ (ImageAdder.inOutColour.attach pass binding views clear blend).img.blend = blend := by
  have key : ∀ (m : ImageAdder) (b : Bool), (m.attach pass binding views clear blend).flags = (m.attach 0 0 []).flags →
      (m.attach 0 0 []).isInput = b → (m.attach pass binding views clear blend).isInput = b := by
    intro m b h1 h2
    rw [← h2]
    simp only [Attachment.isInput, h1]
  refine ⟨?_, ?_, ?_, ?_, ?_, ?_, ?_⟩
  · rintro m (rfl | rfl | rfl) <;> exact ⟨key _ _ rfl (by decide), rfl, rfl⟩
  · rintro m (rfl | rfl) <;> exact ⟨key _ _ rfl (by decide), rfl, rfl, rfl⟩
  · rintro m (rfl | rfl | rfl | rfl | rfl | rfl) <;> exact ⟨key _ _ rfl (by decide), rfl⟩
  · rintro m (rfl | rfl | rfl | rfl) <;> exact ⟨key _ _ rfl (by decide), rfl⟩
  · rintro m (rfl | rfl | rfl) <;> rfl
  · rintro m (rfl | rfl) <;> rfl
  · rfl

end Verif.RPass

namespace Verif.Gpu
open Verif.Rec Verif.Att Verif.Run Verif.Xfer Verif.RPass

/-! ### Images a pass prepares -/

/-- A layout of the view is known when a pass is about to use it as `a` says: tracked by the recording or, for an input,
declared by an input of the graph or known from its previous execution. -/
def KnownFor (G : GraphSt) (c : Ctx) (a : Attachment) (v : View) : Prop :=
  Known c v ∨ a.isInput = true ∧ (getCurrentLayoutState G c v).1.layout ≠ Layout.undefined

theorem current_iff (G : GraphSt) (c : Ctx) (v : View) : (getCurrentLayoutState G c v).1.layout ≠ Layout.undefined ↔
    Known c v ∨ (G.inputs.getState v.image v.viewType v.range).layout ≠ Layout.undefined
      ∨ (G.final.images.getState v.image v.viewType v.range).layout ≠ Layout.undefined := by
  unfold getCurrentLayoutState Known
  simp only
  by_cases h1 : (c.images.getState v.image v.viewType v.range).layout = Layout.undefined
  · rw [if_pos h1]
    by_cases h2 : (G.inputs.getState v.image v.viewType v.range).layout = Layout.undefined
    · by_cases h3 : (G.final.images.getState v.image v.viewType v.range).layout = Layout.undefined
      · simp [h1, h2, h3]
      · simp [h1, h2, h3]
    · simp [h1, h2]
  · simp [h1]

theorem knownFor_mono {G : GraphSt} {c c' : Ctx} {a : Attachment} {v : View} (h : Known c v → Known c' v)
    (hk : KnownFor G c a v) : KnownFor G c' a v := by
  unfold KnownFor at *
  rw [current_iff] at *
  rcases hk with hk | ⟨hi, hk | hk⟩
  · exact Or.inl (h hk)
  · exact Or.inl (h hk)
  · exact Or.inr ⟨hi, Or.inr hk⟩

theorem barrier_implicit (env : Env) (r : Rec) (v : View) (i : Nat) (wn : LayoutState) (f : Bool) :
    (r.viewBarrier env v i wn f).ctx.implicit = r.ctx.implicit := by
  unfold Rec.viewBarrier
  obtain ⟨src, -, ⟨-, e⟩ | ⟨-, e⟩⟩ := imageBarrier_cases env r v.image v.viewType v.range i wn f <;> rw [e] <;> rfl

/-- One image attachment, when nothing is pending for its view. -/
theorem recordImage_contents {env : Env} {G : GraphSt} {index : Nat} {r r' : Rec} {a : Attachment} {v : View}
    (hv : a.img.view index = some v) (hp : ∀ t ∈ r.ctx.implicit, t.view.id ≠ v.id)
    (e : recordImage env G index r a = some r') :
    r'.ctx.implicit = r.ctx.implicit ∧ ∃ cs, r'.cmds = r.cmds ++ cs ∧ ∀ dev M,
      (steps dev M cs).buffer = M.buffer
      ∧ (∀ c, ¬ c.InView v ∨ moved a = false → (steps dev M cs).image c = M.image c)
      ∧ (moved a = true → a.isClearableImage = true → ∀ c, c.InView v → v.range.aspect.testBit c.aspect = true →
          (steps dev M cs).image c = dev.clear 0 c)
      ∧ (a.isClearableImage = false → KnownFor G r.ctx a v → ∀ c, (steps dev M cs).image c = M.image c) := by
  unfold recordImage at e
  rw [hv] at e
  simp only at e
  rw [show r.runImplicit env v = r from use_without_pending env.sepDS r v env.enabled hp] at e
  by_cases hm : moved a = true
  · rw [if_pos hm] at e
    have hcur : ∃ cur : LayoutState × Ctx,
        cur = (if !a.isInput then (makeLayoutState Layout.undefined, r.ctx) else getCurrentLayoutState G r.ctx v)
        ∧ cur.2.implicit = r.ctx.implicit
        ∧ (KnownFor G r.ctx a v → Known cur.2 v ∨ cur.1.layout ≠ Layout.undefined) := by
      refine ⟨_, rfl, ?_⟩
      cases hi : a.isInput with
      | false =>
        refine ⟨rfl, ?_⟩
        rintro (h | ⟨h, -⟩)
        · exact Or.inl h
        · rw [hi] at h; simp at h
      | true =>
        refine ⟨(current_other G r.ctx v).1, ?_⟩
        rintro (h | ⟨-, h⟩)
        · exact Or.inl (known_current G v h)
        · exact Or.inr h
    obtain ⟨cur, ecur, c1, c2⟩ := hcur
    rw [← ecur] at e
    cases hc : a.isClearableImage with
    | true =>
      simp only [hc, if_true, Option.some.injEq] at e
      subst e
      obtain ⟨b1, e1, q1⟩ := barrier_contents env ⟨cur.2, r.cmds⟩ v cur.1.layout clearState false
      have i1 := barrier_implicit env ⟨cur.2, r.cmds⟩ v cur.1.layout clearState false
      generalize Rec.viewBarrier env ⟨cur.2, r.cmds⟩ v cur.1.layout clearState false = r1 at e1 i1 ⊢
      obtain ⟨b2, e2, q2⟩ := barrier_contents env
        (r1.emit (.clearImage (isColourFormat v.format) v.image.id Layout.transferDst v.range 0)) v Layout.transferDst
        (makeLayoutState (a.getImageLayout env.sepDS)) false
      refine ⟨?_, b1 ++ ([_] ++ b2), by rw [e2]; simp only [Rec.emit, e1, List.append_assoc]; rfl, ?_⟩
      · rw [barrier_implicit]
        exact i1.trans c1
      · intro dev M
        simp only [steps_append]
        have h2 : ∀ M, steps dev M b2 = M := fun M => (q2 dev M).2.2 (Or.inr (by decide))
        rw [h2]
        obtain ⟨p1, p2, -⟩ := q1 dev M
        refine ⟨p1, ?_, ?_, by simp⟩
        · rintro c (h | h)
          · simp only [steps, List.foldl_cons, List.foldl_nil, step]
            rw [if_neg fun hx => h ⟨hx.1, hx.2.2⟩]
            exact p2 c h
          · rw [hm] at h; simp at h
        · intro _ _ c hcv ha
          simp only [steps, List.foldl_cons, List.foldl_nil, step]
          exact if_pos ⟨hcv.1, ha, hcv.2⟩
    | false =>
      simp only [hc, Bool.false_eq_true, if_false, Option.some.injEq] at e
      subst e
      obtain ⟨b1, e1, q1⟩ := barrier_contents env ⟨cur.2, r.cmds⟩ v cur.1.layout (makeLayoutState (a.getImageLayout env.sepDS)) false
      refine ⟨by rw [barrier_implicit]; exact c1, b1, e1, ?_⟩
      intro dev M
      obtain ⟨p1, p2, p3⟩ := q1 dev M
      refine ⟨p1, ?_, by simp, ?_⟩
      · rintro c (h | h)
        · exact p2 c h
        · rw [hm] at h; simp at h
      · intro _ hk c
        rw [p3 (c2 hk)]
  · rw [if_neg hm] at e
    cases e
    simp only [Bool.not_eq_true] at hm
    exact ⟨rfl, [], by simp, fun dev M => ⟨rfl, fun _ _ => rfl, by simp [hm], fun _ _ _ => rfl⟩⟩

theorem recordBuffers_quiet (compute : Bool) (index : Nat) : ∀ (as : List Attachment) (r r' : Rec),
    Run.foldOpt (recordBuffer compute index) r as = some r' →
    ∃ cs, r'.cmds = r.cmds ++ cs ∧ ∀ dev M, (steps dev M cs).image = M.image
  | [], r, r', e => by
    simp only [Run.foldOpt, Option.some.injEq] at e; subst e; exact ⟨[], by simp, fun _ _ => rfl⟩
  | a :: as, r, r', e => by
    unfold Run.foldOpt at e
    cases h : recordBuffer compute index r a with
    | none => rw [h] at e; simp at e
    | some r1 =>
      rw [h] at e
      obtain ⟨cs, h1, h2⟩ := recordBuffers_quiet compute index as r1 r' e
      have key : ∃ cs, r1.cmds = r.cmds ++ cs ∧ ∀ dev M, (steps dev M cs).image = M.image := by
        unfold recordBuffer at h
        simp only at h
        split at h
        · split at h
          · simp at h
          · rename_i b _
            split at h
            · simp only [Option.some.injEq] at h
              subst h
              obtain ⟨b1, e1, q1⟩ := bufferBarrier_quiet r b a.buf.offset a.buf.size (r.ctx.getAccess b)
                ⟨Access.transferWrite, Stage.transfer⟩ false
              generalize r.bufferBarrier b a.buf.offset a.buf.size (r.ctx.getAccess b)
                ⟨Access.transferWrite, Stage.transfer⟩ false = r2 at e1 ⊢
              obtain ⟨b2, e2, q2⟩ := bufferBarrier_quiet (r2.emit (.fillBuffer b
                (if a.buf.offset = 0 then 0 else getAlignedSize a.buf.offset 4)
                (if a.buf.size = wholeSize then wholeSize else getAlignedSize a.buf.size 4))) b a.buf.offset a.buf.size
                ⟨Access.transferWrite, Stage.transfer⟩ ⟨a.getAccessMask, a.getPipelineStageFlags compute⟩ false
              refine ⟨b1 ++ ([_] ++ b2), by rw [e2]; simp only [Rec.emit, e1, List.append_assoc]; rfl, ?_⟩
              intro dev M
              simp only [steps_append, q1, q2]
              rfl
            · simp only [Option.some.injEq] at h
              subst h
              obtain ⟨b1, e1, q1⟩ := bufferBarrier_quiet r b a.buf.offset a.buf.size (r.ctx.getAccess b)
                ⟨a.getAccessMask, a.getPipelineStageFlags compute⟩ false
              exact ⟨b1, e1, fun dev M => by rw [q1]⟩
        · simp only [Option.some.injEq] at h; subst h; exact ⟨[], by simp, fun _ _ => rfl⟩
      obtain ⟨cs0, h3, h4⟩ := key
      refine ⟨cs0 ++ cs, by rw [h1, h3, List.append_assoc], fun dev M => ?_⟩
      rw [steps_append, h2, h4]

/-- C68, images a pass prepares, C69. If the images of a pass don't overlap and no substitute is pending for them, then when
its body starts: every clearable storage image it declares holds zeroes, everywhere; an image that isn't cleared holds what it
held if a layout of it is known (tracked, or, for an input, declared or remembered by the graph); so does everything that isn't
in one of its images. -/
theorem prepared_contents {env : Env} {G : GraphSt} {p : RunPass} {index : Nat} {r r' : Rec}
    (hS : (p.images.Pairwise fun a b => ∀ v w, a.img.view index = some v → b.img.view index = some w → View.Apart v w))
    (hl : ∀ a ∈ p.images, moved a = true → a.getImageLayout env.sepDS ≠ Layout.undefined)
    (hp : ∀ a ∈ p.images, ∀ v, a.img.view index = some v → ∀ t ∈ r.ctx.implicit, t.view.id ≠ v.id)
    (e : prepare env G p index r = some r') :
    ∃ cs, r'.cmds = r.cmds ++ cs ∧ ∀ dev M,
      (∀ a ∈ p.images, moved a = true → a.isClearableImage = true → ∀ v, a.img.view index = some v →
        ∀ c, c.InView v → v.range.aspect.testBit c.aspect = true → (steps dev M cs).image c = dev.clear 0 c)
      ∧ (∀ a ∈ p.images, ∀ v, a.img.view index = some v →
          moved a = false ∨ a.isClearableImage = false ∧ KnownFor G r.ctx a v →
        ∀ c, c.InView v → (steps dev M cs).image c = M.image c)
      ∧ (∀ c, (∀ a ∈ p.images, ∀ v, a.img.view index = some v → ¬ c.InView v) → (steps dev M cs).image c = M.image c) := by
  unfold prepare at e
  cases h : Run.foldOpt (recordImage env G index) r p.images with
  | none => rw [h] at e; simp at e
  | some r1 =>
    rw [h] at e
    obtain ⟨cb, hb1, hb2⟩ := recordBuffers_quiet p.compute index p.buffers r1 r' e
    have key : ∀ (as : List Attachment) (r r1 : Rec),
        (as.Pairwise fun a b => ∀ v w, a.img.view index = some v → b.img.view index = some w → View.Apart v w) →
        (∀ a ∈ as, moved a = true → a.getImageLayout env.sepDS ≠ Layout.undefined) →
        (∀ a ∈ as, ∀ v, a.img.view index = some v → ∀ t ∈ r.ctx.implicit, t.view.id ≠ v.id) →
        Run.foldOpt (recordImage env G index) r as = some r1 →
        ∃ cs, r1.cmds = r.cmds ++ cs ∧ ∀ dev M,
          (∀ a ∈ as, moved a = true → a.isClearableImage = true → ∀ v, a.img.view index = some v →
            ∀ c, c.InView v → v.range.aspect.testBit c.aspect = true → (steps dev M cs).image c = dev.clear 0 c)
          ∧ (∀ a ∈ as, ∀ v, a.img.view index = some v →
              moved a = false ∨ a.isClearableImage = false ∧ KnownFor G r.ctx a v →
            ∀ c, c.InView v → (steps dev M cs).image c = M.image c)
          ∧ (∀ c, (∀ a ∈ as, ∀ v, a.img.view index = some v → ¬ c.InView v) → (steps dev M cs).image c = M.image c) := by
      intro as
      induction as with
      | nil =>
        intro r r1 _ _ _ e
        simp only [Run.foldOpt, Option.some.injEq] at e
        subst e
        exact ⟨[], by simp, fun dev M => ⟨by simp, by simp, fun _ _ => rfl⟩⟩
      | cons a as ih =>
        intro r r1 hS hl hp e
        unfold Run.foldOpt at e
        cases h : recordImage env G index r a with
        | none => rw [h] at e; simp at e
        | some r2 =>
          rw [h] at e
          obtain ⟨v, hv⟩ : ∃ v, a.img.view index = some v := by
            cases hv : a.img.view index with
            | none => unfold recordImage at h; rw [hv] at h; simp at h
            | some v => exact ⟨v, rfl⟩
          obtain ⟨i1, cs1, i2, i3⟩ := recordImage_contents hv (hp a (by simp) v hv) h
          have hS' := List.pairwise_cons.1 hS
          obtain ⟨cs2, j1, j2⟩ := ih r2 r1 hS'.2 (fun x hx => hl x (by simp [hx]))
            (fun x hx w hw => by rw [i1]; exact hp x (by simp [hx]) w hw) e
          refine ⟨cs1 ++ cs2, by rw [j1, i2, List.append_assoc], fun dev M => ?_⟩
          rw [steps_append]
          obtain ⟨-, k2, k3, k4⟩ := i3 dev M
          obtain ⟨l1, l2, l3⟩ := j2 dev (steps dev M cs1)
          have hothers : ∀ c : Cell, c.InView v → ∀ b ∈ as, ∀ w, b.img.view index = some w → ¬ c.InView w :=
            fun c hc b hb w hw => apart_inView (hS'.1 b hb v w hv hw) hc
          refine ⟨?_, ?_, ?_⟩
          · intro b hb hm hcl w hw c hc ha
            rcases List.mem_cons.1 hb with rfl | hb
            · rw [hv] at hw
              cases hw
              rw [l3 c (hothers c hc)]
              exact k3 hm hcl c hc ha
            · exact l1 b hb hm hcl w hw c hc ha
          · intro b hb w hw hk c hc
            rcases List.mem_cons.1 hb with rfl | hb
            · rw [hv] at hw
              cases hw
              rw [l3 c (hothers c hc)]
              rcases hk with hk | ⟨hk1, hk2⟩
              · exact k2 c (Or.inr hk)
              · exact k4 hk1 hk2 c
            · have hnv : ¬ c.InView v := fun h => hothers c h b hb w hw hc
              rw [l2 b hb w hw ?_ c hc]
              · exact k2 c (Or.inl hnv)
              · rcases hk with hk | ⟨hk1, hk2⟩
                · exact Or.inl hk
                · exact Or.inr ⟨hk1, knownFor_mono (recordImage_known (hl a (by simp)) h).1 hk2⟩
          · intro c hc
            rw [l3 c fun b hb => hc b (by simp [hb])]
            exact k2 c (Or.inl (hc a (by simp) v hv))
    obtain ⟨cs, h1, h2⟩ := key p.images r r1 hS hl hp h
    refine ⟨cs ++ cb, by rw [hb1, h1, List.append_assoc], fun dev M => ?_⟩
    rw [steps_append, hb2]
    exact h2 dev M

end Verif.Gpu

namespace Verif.RPass
open Verif.Rec Verif.Att Verif.Run Verif.Gpu Verif.Xfer

/-! ### Cases -/

/-- A pass that draws to a colour target cleared with value 7, and one that draws over it. -/
def fFirst : RunPass := drawPass 1 [ImageAdder.outputColour.attach 1 0 [xView] 7]
def fOver : RunPass := drawPass 2 [ImageAdder.inOutColour.attach 2 0 [xView]]

theorem fPasses_tidy : TidyViews false (fun _ => 37) xV [fFirst, fOver] := by
  have himg : ∀ p ∈ [fFirst, fOver], ∀ a ∈ p.images, a.img.views = [xView] ∧ a.getImageLayout false ≠ Layout.undefined := by
    intro p hp a ha
    simp only [fFirst, fOver, drawPass, List.mem_cons, List.not_mem_nil, or_false] at hp
    rcases hp with rfl | rfl <;>
      (simp only [List.mem_cons, List.not_mem_nil, or_false] at ha; subst ha; exact ⟨rfl, by decide⟩)
  refine ⟨⟨?_, ?_, ?_, ?_⟩, ?_, ?_, ?_, ?_, ?_⟩
  · rintro v rfl; rfl
  · rintro v rfl; decide
  · rintro v rfl; decide
  · rintro v w rfl rfl; exact Or.inr ⟨rfl, fun _ _ => Iff.rfl⟩
  · rintro u v rfl rfl _; rfl
  · rintro x ⟨p, hp, a, ha, hx⟩
    rw [(himg p hp a ha).1, List.mem_singleton] at hx
    subst hx
    exact ⟨rfl, by decide⟩
  · intro p hp a ha _
    exact (himg p hp a ha).2
  · intro p hp index
    simp only [fFirst, fOver, drawPass, List.mem_cons, List.not_mem_nil, or_false] at hp
    rcases hp with rfl | rfl <;> simp
  · intro p hp va hva
    simp only [fFirst, fOver, drawPass, List.mem_cons, List.not_mem_nil, or_false] at hp
    rcases hp with rfl | rfl <;> simp at hva

theorem fDeclares : Declares false fFirst ∧ Declares false fOver := by
  have hd : ∀ q : RunPass, (∀ a ∈ q.images, a.img.views = [xView] ∧ a.getImageLayout false ≠ Layout.undefined) → Declares false q := by
    intro q hq a ha
    refine ⟨(hq a ha).2, fun v hv => ?_⟩
    rw [(hq a ha).1, List.mem_singleton] at hv
    subst hv
    exact ⟨xView.range, ⟨⟨rfl, rfl⟩, fun h => absurd h (by decide), fun _ => ⟨rfl, rfl⟩⟩, by decide⟩
  constructor <;> refine hd _ ?_ <;> intro a ha <;>
    (simp only [fFirst, fOver, drawPass, List.mem_singleton] at ha; subst ha; exact ⟨rfl, by decide⟩)

/-- Recording a pass that draws from a recording in which a layout of the image is tracked. -/
def fTracked : Rec := ⟨Ctx.new.setLayout xImg .d2 xView.range (makeLayoutState Layout.shaderReadOnly), []⟩

/-- The hypotheses of `drawing_contents_partial` are met, for a target cleared with 7. -/
theorem example_cleared : ∃ o r' start stop, recordPass false xG 64 64 fFirst none [1] 0 fTracked = some (o, r')
    ∧ r'.cmds = [start, .user 1, stop]
    ∧ ∀ dev M, (step dev M start).image ⟨1, 0, 0, 0, 63, 63, 0, 2⟩ = dev.clear 7 ⟨1, 0, 0, 0, 63, 63, 0, 2⟩ := by
  have h : ((recordPass false xG 64 64 fFirst none [1] 0 fTracked).map fun x => (x.1.views, x.1.width, x.1.height, x.1.layers))
      = some ([xView], 64, 64, 1) := by decide
  obtain ⟨⟨o, r'⟩, e, h⟩ := Option.map_eq_some_iff.1 h
  simp only [Prod.mk.injEq] at h
  obtain ⟨h1, h2, h3, h4⟩ := h
  have hf : FramebufferFits o := by
    unfold FramebufferFits
    rw [h1, h2, h3, h4]
    decide
  obtain ⟨ts, start, stop, hts, hc, hs⟩ := drawing_contents_partial (p := fFirst) fPasses_tidy (by simp) fDeclares.1 e hf
  refine ⟨o, r', start, stop, e, hc, fun dev M => ?_⟩
  obtain ⟨hs1, -⟩ := hs dev M
  have hall := hts.all
  have hfil : fFirst.images.filter isTarget = [ImageAdder.outputColour.attach 1 0 [xView] 7] := by decide
  rw [hfil] at hall
  cases ts with
  | nil => simp at hall
  | cons av rest =>
    simp only [List.map_cons, List.cons.injEq] at hall
    have hv := hts.view av (by simp)
    rw [hall.1] at hv
    have hv : av.2 = xView := (Option.some.inj hv).symm
    have := (hs1 av (by simp) ⟨1, 0, 0, 0, 63, 63, 0, 2⟩ (by
      unfold InArea Cell.InView
      rw [hv, h2, h3, h4]
      decide)).1 (by rw [hall.1]; decide) (Or.inl (by decide))
    rw [hall.1] at this
    exact this

/-- C68 fails as declared for an input the graph knows no layout of: drawing over an image that is drawn to for the first time
clears it, with a value nobody gave. -/
theorem unknown_input_cleared : ∃ o r' start stop, recordPass false xG 64 64 fOver none [1] 0 ⟨Ctx.new, []⟩ = some (o, r')
    ∧ r'.cmds = [start, .user 1, stop]
    ∧ ∀ dev M, (step dev M start).image ⟨1, 0, 0, 0, 63, 63, 0, 2⟩ = dev.clear 0 ⟨1, 0, 0, 0, 63, 63, 0, 2⟩ := by
  have h : ((recordPass false xG 64 64 fOver none [1] 0 ⟨Ctx.new, []⟩).map fun x => x.2.cmds)
      = some [.beginPass [⟨1, rng1, 0, some 2, 2, false, false, some 0, none, true, false⟩] 64 64 1, .user 1,
        .endPass [⟨1, rng1, 0, some 2, 2, false, false, some 0, none, true, false⟩]] := by decide
  obtain ⟨⟨o, r'⟩, e, h⟩ := Option.map_eq_some_iff.1 h
  refine ⟨o, r', _, _, e, h, fun dev M => ?_⟩
  simp [step, clearedTo, Cell.InBox, rng1]

/-- Drawing over the depth of a depth and stencil image, declared as depth only and known to the graph, loses its stencil
values as soon as the pass starts. -/
theorem depth_only_loses_stencil : ∃ o r' start stop,
    recordPass false xG 64 64 (drawPass 1 [ImageAdder.inOutDepth.attach 1 0 [dsView 6]]) none [1] 0
      ⟨Ctx.new.setLayout dsImg .d2 ⟨6, 0, 1, 0, 1⟩ (makeLayoutState Layout.depthStencilAttachment), []⟩ = some (o, r')
    ∧ r'.cmds = [start, .user 1, stop]
    ∧ ∀ dev M, (step dev M start).image ⟨5, 1, 0, 0, 3, 3, 0, 0⟩ = M.image ⟨5, 1, 0, 0, 3, 3, 0, 0⟩
      ∧ (step dev M start).image ⟨5, 2, 0, 0, 3, 3, 0, 0⟩ = dev.junk ⟨5, 2, 0, 0, 3, 3, 0, 0⟩ := by
  have h : ((recordPass false xG 64 64 (drawPass 1 [ImageAdder.inOutDepth.attach 1 0 [dsView 6]]) none [1] 0
      ⟨Ctx.new.setLayout dsImg .d2 ⟨6, 0, 1, 0, 1⟩ (makeLayoutState Layout.depthStencilAttachment), []⟩).map fun x => x.2.cmds)
      = some [.beginPass [⟨5, ⟨6, 0, 1, 0, 1⟩, 3, some 3, 3, true, false, none, none, true, false⟩] 64 64 1, .user 1,
        .endPass [⟨5, ⟨6, 0, 1, 0, 1⟩, 3, some 3, 3, true, false, none, none, true, false⟩]] := by decide
  obtain ⟨⟨o, r'⟩, e, h⟩ := Option.map_eq_some_iff.1 h
  refine ⟨o, r', _, _, e, h, fun dev M => ?_⟩
  have t1 : Nat.testBit 6 1 = true := by decide
  have t2 : Nat.testBit 6 2 = true := by decide
  constructor
  · simp [step, clearedTo, Cell.InBox, forget, Discards, PassAtt.IsOf, Selects, Range.Has, Layout.undefined]
  · simp [step, clearedTo, Cell.InBox, forget, Discards, PassAtt.IsOf, Selects, Range.Has, Layout.undefined, t2]

/-- A depth or colour target declared as an input only isn't stored: what it held is lost when the pass ends. -/
theorem input_target_lost : ∃ o r' start stop,
    recordPass false xG 64 64 (drawPass 1 [ImageAdder.inputColour.attach 1 0 [xView]]) none [1] 0 fTracked = some (o, r')
    ∧ r'.cmds = [start, .user 1, stop]
    ∧ ∀ dev M, (step dev M start).image ⟨1, 0, 0, 0, 63, 63, 0, 2⟩ = M.image ⟨1, 0, 0, 0, 63, 63, 0, 2⟩
      ∧ (step dev M stop).image ⟨1, 0, 0, 0, 63, 63, 0, 2⟩ = dev.junk ⟨1, 0, 0, 0, 63, 63, 0, 2⟩ := by
  have h : ((recordPass false xG 64 64 (drawPass 1 [ImageAdder.inputColour.attach 1 0 [xView]]) none [1] 0 fTracked).map fun x => x.2.cmds)
      = some [.beginPass [⟨1, rng1, 5, some 2, 2, true, false, none, none, false, false⟩] 64 64 1, .user 1,
        .endPass [⟨1, rng1, 5, some 2, 2, true, false, none, none, false, false⟩]] := by decide
  obtain ⟨⟨o, r'⟩, e, h⟩ := Option.map_eq_some_iff.1 h
  refine ⟨o, r', _, _, e, h, fun dev M => ?_⟩
  constructor
  · simp [step, clearedTo, Cell.InBox, forget, Discards, PassAtt.IsOf, Selects, Range.Has, Layout.undefined, rng1]
  · simp [step, forget, Discards, PassAtt.IsOf, Selects, Range.Has, rng1]

/-- The hypotheses of `prepared_contents` are met by the writer of Ready.lean: its storage image is zero when its body starts. -/
theorem example_prepared : ∃ r', prepare ⟨false, fun _ => true⟩ xG xWriter 0 ⟨Ctx.new, []⟩ = some r'
    ∧ ∀ dev M, (steps dev M r'.cmds).image ⟨1, 0, 0, 0, 63, 63, 0, 2⟩ = dev.clear 0 ⟨1, 0, 0, 0, 63, 63, 0, 2⟩ := by
  have h : (prepare ⟨false, fun _ => true⟩ xG xWriter 0 ⟨Ctx.new, []⟩).isSome = true := by decide
  obtain ⟨r', e⟩ := Option.isSome_iff_exists.1 h
  obtain ⟨cs, h1, h2⟩ := prepared_contents (by simp [xWriter]) (by decide) (by simp [Ctx.new]) e
  refine ⟨r', e, fun dev M => ?_⟩
  rw [h1]
  exact (h2 dev M).1 (ImageAdder.clearableOutputStorage.attach 1 0 [xView]) (by simp [xWriter]) (by decide) (by decide) xView rfl
    _ ⟨rfl, by decide⟩ (by decide)

end Verif.RPass
