import Verif.Props.Library
/-
C64 over any number of executions: the render pass objects made by a frame are used by the next ones, what a frame leaves is
what the next one starts from.
-/
namespace Verif.Lib
open Verif.Rec Verif.Att Verif.Run Verif.Gpu Verif.RPass

/-- The passes declare the same attachments, states and actions; what their bodies record may differ (it depends on the
objects they have and on what the graph remembers). -/
def SameDecls (decls passes : List RunPass) : Prop :=
  passes.map (fun p => { p with body := fun _ r => r }) = decls.map (fun p => { p with body := fun _ r => r })

/-- After a frame the render pass objects are those from before, or the ones the passes entered in this frame drew with. -/
def ObjectsAfter (sepDS : Bool) (G : GraphSt) (en : Nat → Bool) (index : Nat → Nat) (passes : List RunPass) (f : Frame)
    (cached cached' : Nat → Nat → Option PassObj) : Prop :=
  ∀ id i, cached' id i = cached id i
    ∨ ∃ p r w h draw o r', Enters ⟨sepDS, en⟩ G index passes f p r ∧ p.id = id ∧ index p.id = i
      ∧ recordPass sepDS G w h p (cached id i) draw i r = some (o, r') ∧ cached' id i = some o

/-- The graph executes several times: each frame with its enabled passes and indices, its passes of known kinds entered as
`EntersWell` asks, from layouts in which only the declared inputs were touched since the previous frame. The streams recorded,
with the layouts each starts from. -/
inductive Frames (sepDS : Bool) (V : View → Prop) (decls : List RunPass) :
    GraphSt → (Nat → Nat → Bool) → List Event → Layouts → (Nat → Nat → Option PassObj) → List Exec →
    List (Layouts × List Cmd) → Prop
  | done (G ini log g cached) : Frames sepDS V decls G ini log g cached [] []
  | step {G ini log g g' cached cached' x xs G' f out passes} (same : SameDecls decls passes)
      (kinds : ∀ p ∈ passes, Kind sepDS G V passes (cached p.id) p)
      (well : EntersWell sepDS G x.enabled x.index passes (frameStart sepDS [] passes ini log) cached)
      (hg : Restored G g g')
      (e : record ⟨sepDS, x.enabled⟩ G [] x.index passes ini log = some (G', f))
      (objs : ObjectsAfter sepDS G x.enabled x.index passes (frameStart sepDS [] passes ini log) cached cached')
      (rest : Frames sepDS V decls G' f.initialised f.log (execAll g' f.recd.cmds) cached' xs out) :
      Frames sepDS V decls G ini log g cached (x :: xs) ((g', f.recd.cmds) :: out)

theorem sameDecls_mem {decls passes : List RunPass} (h : SameDecls decls passes) {p : RunPass} (hp : p ∈ passes) :
    ∃ d ∈ decls, ∃ b, p = { d with body := b } := by
  have h1 : { p with body := fun _ r => r } ∈ passes.map (fun p : RunPass => { p with body := fun _ r => r }) :=
    List.mem_map_of_mem (f := fun p : RunPass => { p with body := fun _ r => r }) hp
  rw [h] at h1
  obtain ⟨d, hd, e⟩ := List.mem_map.1 h1
  refine ⟨d, hd, p.body, ?_⟩
  cases p; cases d
  simp only [RunPass.mk.injEq] at e ⊢
  obtain ⟨h1, h2, h3, h4, h5, h6, h7, -⟩ := e
  exact ⟨h1.symm, h2.symm, h3.symm, h4.symm, h5.symm, h6.symm, h7.symm, trivial⟩

theorem sameDecls_attached {decls passes : List RunPass} (h : SameDecls decls passes) (x : View) :
    AttachedTo passes x ↔ AttachedTo decls x := by
  constructor
  · rintro ⟨p, hp, a, ha, hx⟩
    obtain ⟨d, hd, b, rfl⟩ := sameDecls_mem h hp
    exact ⟨d, hd, a, ha, hx⟩
  · rintro ⟨p, hp, a, ha, hx⟩
    obtain ⟨d, hd, b, rfl⟩ := sameDecls_mem (Eq.symm h : SameDecls passes decls) hp
    exact ⟨d, hd, a, ha, hx⟩

theorem sameDecls_tidy {sepDS : Bool} {fmt : Nat → Nat} {V : View → Prop} {decls passes : List RunPass}
    (h : SameDecls decls passes) (t : TidyViews sepDS fmt V decls) : TidyViews sepDS fmt V passes := by
  refine ⟨t.tidy, t.ids, fun x hx => t.attached x ((sameDecls_attached h x).1 hx), ?_, ?_, ?_⟩
  · intro p hp
    obtain ⟨d, hd, b, rfl⟩ := sameDecls_mem h hp
    exact t.layouts d hd
  · intro p hp
    obtain ⟨d, hd, b, rfl⟩ := sameDecls_mem h hp
    exact t.apart d hd
  · intro p hp va hva
    obtain ⟨d, hd, b, rfl⟩ := sameDecls_mem h hp
    obtain ⟨h1, h2, h3⟩ := t.actions d hd va hva
    exact ⟨h1, h2, fun w hw x hx => h3 w hw x ((sameDecls_attached h x).1 hx)⟩

theorem madeFor_body {sepDS : Bool} {p : RunPass} {b : Nat → Rec → Rec} {i : Nat} {o : PassObj} :
    MadeFor sepDS { p with body := b } i o ↔ MadeFor sepDS p i o := by
  unfold MadeFor
  have : ∀ G c w h, initialise sepDS G w h { p with body := b } i none c = initialise sepDS G w h p i none c := by
    intro G c w h
    rfl
  simp only [this]

theorem madeFor_of_recordPass {sepDS : Bool} {G : GraphSt} {p : RunPass} {i w h : Nat} {cached : Option PassObj}
    {draw : List Nat} {o : PassObj} {r r' : Rec} (hc : ∀ o, cached = some o → MadeFor sepDS p i o)
    (e : recordPass sepDS G w h p cached draw i r = some (o, r')) : MadeFor sepDS p i o := by
  unfold recordPass at e
  rw [Option.map_eq_some_iff] at e
  obtain ⟨⟨o', made, c'⟩, e1, e2⟩ := e
  simp only [Prod.mk.injEq] at e2
  obtain ⟨rfl, -⟩ := e2
  cases hcc : cached with
  | none =>
    rw [hcc] at e1
    have hm : made = true := by
      unfold initialise at e1
      simp only [Option.bind_eq_some_iff, Option.map_eq_some_iff] at e1
      obtain ⟨_, _, _, _, _, _, e⟩ := e1
      cases e; rfl
    subst hm
    exact ⟨G, r.ctx, c', w, h, e1⟩
  | some oc =>
    rw [hcc] at e1
    unfold initialise at e1
    simp only at e1
    split at e1
    · cases e1
      exact hc _ hcc
    · have hm : made = true := by
        simp only [Option.bind_eq_some_iff, Option.map_eq_some_iff] at e1
        obtain ⟨_, _, _, _, _, _, e⟩ := e1
        cases e; rfl
      subst hm
      exact ⟨G, r.ctx, c', w, h, e1⟩

/-- **C64**, any number of executions (partial: tidy views, `EntersWell` in each frame, no dependency on other graphs). Every
frame of every history of a graph of passes of the library records a valid stream, whichever passes are enabled in each
frame, with the render pass objects of earlier frames. -/
theorem library_executions_valid_partial {sepDS : Bool} {fmt : Nat → Nat} {V : View → Prop} {decls : List RunPass}
    (hT : TidyViews sepDS fmt V decls) (hids : ∀ p ∈ decls, ∀ q ∈ decls, p.id = q.id → p = q)
    {G : GraphSt} {ini : Nat → Nat → Bool} {log : List Event} {g : Layouts} {cached : Nat → Nat → Option PassObj}
    {xs : List Exec} {out : List (Layouts × List Cmd)} (h : Frames sepDS V decls G ini log g cached xs out)
    (hin : ∀ v, V v → Whole G.inputs v) (hfin : ∀ v, V v → Whole G.final.images v)
    (htrue : ∀ i a l m s, HasAspect (fmt i) a → G.final.images.at i l m = some s → g i a l m = s.layout)
    (hmade : ∀ p ∈ decls, ∀ i o, cached p.id i = some o → MadeFor sepDS p i o) :
    ∀ o ∈ out, StreamValid o.1 o.2 := by
  induction h with
  | done => intro o ho; simp at ho
  | @step G ini log g g' cached cached' x xs G' f out passes same kinds well hg e objs rest ih =>
    have hH : Honest fmt V g' (startCtx []) G := honest_restored hin hfin htrue hg
    have hT' := sameDecls_tidy same hT
    have hmade' : ∀ p ∈ passes, ∀ i o, cached p.id i = some o → MadeFor sepDS p i o := by
      intro p hp i o ho
      obtain ⟨d, hd, b, rfl⟩ := sameDecls_mem same hp
      exact madeFor_body.2 (hmade d hd i o ho)
    obtain ⟨h1, h2, h3, h4⟩ := library_graph_valid_partial hT' cached kinds x.enabled x.index [] hH ini log
      (fun p hp o ho => hmade' p hp _ o ho) well G' f e
    intro o ho
    rcases List.mem_cons.1 ho with rfl | ho
    · exact h1
    · refine ih (by rw [h4]; exact hin) h3 h2 ?_ o ho
      intro p hp i o ho
      rcases objs p.id i with hc | ⟨q, r, w, ht, draw, o', r', he, hid, hi, er, hc⟩
      · exact hmade p hp i o (hc ▸ ho)
      · rw [hc] at ho
        cases ho
        have hq := enters_mem he
        have hqm : MadeFor sepDS q i o :=
          madeFor_of_recordPass (fun o ho => hmade' q hq i o (by rw [hid]; exact ho)) er
        obtain ⟨d, hd, b, rfl⟩ := sameDecls_mem same hq
        have := hids d hd p hp hid
        subst this
        exact madeFor_body.1 hqm

/-! ### A history of two frames: a pass draws, another samples; the second frame draws with the object of the first. -/

/-- The passes of a frame, with the objects of the first one by index. -/
def fPasses (G : GraphSt) (c : Nat → Option PassObj) : List RunPass :=
  [{ aFirst with body := fun index r => ((recordPass false G 64 64 aFirst (c index) [1] index r).map (·.2)).getD r }, aSample]

theorem fPasses_views (G : GraphSt) (c : Nat → Option PassObj) : ∀ p ∈ fPasses G c, ∀ a ∈ p.images,
    a.img.views = [xView] ∧ a.getImageLayout false ≠ Layout.undefined ∧ a.img.stencilLoadOp ≠ LoadOp.load := by
  intro p hp a ha
  simp only [fPasses, aFirst, aSample, drawPass, List.mem_cons, List.not_mem_nil, or_false] at hp
  rcases hp with rfl | rfl <;>
    (simp only [List.mem_cons, List.not_mem_nil, or_false] at ha; subst ha; exact ⟨rfl, by decide, by decide⟩)

theorem fPasses_same (G G' : GraphSt) (c c' : Nat → Option PassObj) : SameDecls (fPasses G c) (fPasses G' c') := rfl

theorem fPasses_tidy (G : GraphSt) (c : Nat → Option PassObj) : TidyViews false (fun _ => 37) xV (fPasses G c) := by
  have himg := fPasses_views G c
  refine ⟨⟨?_, ?_, ?_, ?_⟩, ?_, ?_, ?_, ?_, ?_⟩
  · rintro v rfl; rfl
  · rintro v rfl; decide
  · rintro v rfl; decide
  · rintro v w rfl rfl; exact Or.inr ⟨rfl, fun _ _ => Iff.rfl⟩
  · rintro u v rfl rfl _; rfl
  · rintro x ⟨p, hp, a, ha, hx⟩
    rw [(himg p hp a ha).1, List.mem_singleton] at hx
    subst hx
    exact ⟨rfl, by decide⟩
  · intro p hp a ha _
    exact (himg p hp a ha).2.1
  · intro p hp index
    simp only [fPasses, aFirst, aSample, drawPass, List.mem_cons, List.not_mem_nil, or_false] at hp
    rcases hp with rfl | rfl <;> simp
  · intro p hp va hva
    simp only [fPasses, aFirst, aSample, drawPass, List.mem_cons, List.not_mem_nil, or_false] at hp
    rcases hp with rfl | rfl <;> simp at hva

/-- The object of pass 1, index 0. -/
def objs (o : Option PassObj) : Nat → Nat → Option PassObj := fun id i => if id = 1 ∧ i = 0 then o else none

theorem fPasses_kinds (G : GraphSt) (o : Option PassObj) :
    ∀ p ∈ fPasses G (objs o 1), Kind false G xV (fPasses G (objs o 1)) (objs o p.id) p := by
  intro p hp
  have hd : Declares false p := by
    intro a ha
    refine ⟨(fPasses_views G _ p hp a ha).2.1, fun v hv => ?_⟩
    rw [(fPasses_views G _ p hp a ha).1, List.mem_singleton] at hv
    subst hv
    exact ⟨xView.range, virtual_designates _ _ _, by decide⟩
  simp only [fPasses, List.mem_cons, List.not_mem_nil, or_false] at hp
  rcases hp with rfl | rfl
  · exact .draws ⟨64, 64, [1], fun _ _ => rfl⟩ hd
  · exact .uses fun index r => ⟨[], by simp, rfl⟩

theorem fPasses_well (G : GraphSt) (o : Option PassObj) (ini : Nat → Nat → Bool) (log : List Event)
    (ho : ∀ x, o = some x → ∀ e ∈ x.entries, e.input.layout = Layout.undefined) :
    EntersWell false G (fun _ => true) (fun _ => 0) (fPasses G (objs o 1)) (frameStart false [] (fPasses G (objs o 1)) ini log)
      (objs o) := by
  intro p r he
  have hp := enters_mem he
  constructor
  · intro _
    constructor
    · intro x hx e hee _
      unfold objs at hx
      split at hx
      · exact Or.inl (ho x hx e hee)
      · simp at hx
    · intro a ha _ hl
      exact absurd hl (fPasses_views G _ p hp a ha).2.2
  · rintro ⟨ty, output, hM⟩
    exfalso
    simp only [fPasses, List.mem_cons, List.not_mem_nil, or_false] at hp
    rcases hp with rfl | rfl
    · have := (hM.declared _ rfl).1
      exact absurd this (by decide)
    · have := ((hM.declared _ rfl).2 xView (List.mem_singleton.2 rfl)).2.2
      exact absurd this (by decide)

def allOn : Exec := ⟨fun _ => true, fun _ => 0⟩

/-- Both frames are recorded, each with one render pass; the second draws with the object of the first. -/
theorem example_frames : ∃ g1 g2 cs1 cs2, Frames false xV (fPasses xG fun _ => none) xG (fun _ _ => false) [] gpu0 (objs none)
      [allOn, allOn] [(g1, cs1), (g2, cs2)]
    ∧ (begun cs1).length = 1 ∧ (begun cs2).length = 1
    ∧ StreamValid g1 cs1 ∧ StreamValid g2 cs2 := by
  let step1 := record ⟨false, fun _ => true⟩ xG [] (fun _ => 0) (fPasses xG (objs none 1)) (fun _ _ => false) []
  have h : (step1.bind fun x =>
      (enteredRec ⟨false, fun _ => true⟩ xG (fun _ => 0) (fPasses xG (objs none 1)) (frame0 (fPasses xG (objs none 1))) 0).bind
        fun r => (recordPass false xG 64 64 aFirst none [1] 0 r).bind fun y =>
          (record ⟨false, fun _ => true⟩ x.1 [] (fun _ => 0) (fPasses x.1 (objs (some y.1) 1)) x.2.initialised x.2.log).map
            fun z => (y.1.entries.map (·.input.layout), (begun x.2.recd.cmds).length, (begun z.2.recd.cmds).length))
      = some ([Layout.undefined], 1, 1) := by decide
  obtain ⟨⟨G1, f1⟩, e1, h⟩ := Option.bind_eq_some_iff.1 h
  obtain ⟨r, e2, h⟩ := Option.bind_eq_some_iff.1 h
  obtain ⟨⟨o, r'⟩, e3, h⟩ := Option.bind_eq_some_iff.1 h
  obtain ⟨⟨G2, f2⟩, e4, h⟩ := Option.map_eq_some_iff.1 h
  simp only [Prod.mk.injEq] at h
  obtain ⟨h1, h2, h3⟩ := h
  have hG1 : G1.inputs = xG.inputs := by
    simp only [step1, record] at e1
    split at e1
    · simp at e1
    · cases e1; rfl
  have ho : ∀ x, some o = some x → ∀ e ∈ x.entries, e.input.layout = Layout.undefined := by
    intro x hx e he
    cases hx
    have := List.mem_map_of_mem (f := fun e : Entry => e.input.layout) he
    rw [h1, List.mem_singleton] at this
    exact this
  obtain ⟨q, hq, hent⟩ := enters_of e2
  have hq1 : q.id = 1 ∧ ∃ b, q = { aFirst with body := b } := by
    simp only [fPasses, List.getElem?_cons_zero, Option.some.injEq] at hq
    subst hq
    exact ⟨rfl, _, rfl⟩
  obtain ⟨hqid, b, rfl⟩ := hq1
  have F : Frames false xV (fPasses xG fun _ => none) xG (fun _ _ => false) [] gpu0 (objs none) [allOn, allOn]
      [(gpu0, f1.recd.cmds), (execAll gpu0 f1.recd.cmds, f2.recd.cmds)] := by
    refine .step (cached' := objs (some o)) (passes := fPasses xG (objs none 1)) (fPasses_same ..) (fPasses_kinds xG none)
      (fPasses_well xG none _ _ (by simp)) (fun _ _ _ _ => rfl) e1 ?_ ?_
    · intro id i
      by_cases hc : id = 1 ∧ i = 0
      · obtain ⟨rfl, rfl⟩ := hc
        exact Or.inr ⟨_, r, 64, 64, [1], o, r', hent, rfl, rfl, e3, rfl⟩
      · left
        unfold objs
        rw [if_neg hc, if_neg hc]
    · refine .step (cached' := objs (some o)) (passes := fPasses G1 (objs (some o) 1)) (fPasses_same ..)
        (fPasses_kinds G1 (some o)) (fPasses_well G1 (some o) _ _ ho) ?_ e4 (fun _ _ => Or.inl rfl) (.done ..)
      intro i a l m
      rw [hG1]
      rfl
  have V := library_executions_valid_partial (fPasses_tidy xG fun _ => none) (by
      intro p hp q hq
      simp only [fPasses, List.mem_cons, List.not_mem_nil, or_false] at hp hq
      rcases hp with rfl | rfl <;> rcases hq with rfl | rfl <;> intro hid <;> first | rfl | exact absurd hid (by decide)) F
    (fun _ _ => Or.inl fun _ _ _ => rfl) (fun _ _ => Or.inl fun _ _ _ => rfl)
    (fun i a l m s _ h => by simp [xG, Ctx.new, LayoutMap.empty, LayoutMap.at] at h)
    (fun p _ i o h => by simp [objs] at h)
  exact ⟨_, _, _, _, F, h2, h3, V _ (List.mem_cons_self ..), V _ (List.mem_cons_of_mem _ (List.mem_cons_self ..))⟩

end Verif.Lib
