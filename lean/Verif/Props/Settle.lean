import Verif.Lemmas.SettleMips
/-
C75: recorded again and again without any change, a graph settles: from the second recording on, it records the same commands.
-/
namespace Verif.Settle
open Verif.Rec Verif.Att Verif.Run Verif.Gpu Verif.RPass

variable {sepDS : Bool} {fmt : Nat → Nat} {V : View → Prop} {passes : List RunPass} {inp : LayoutMap} {out : Images}
  {base : Nat → Prop}

/-! ### What is announced does not depend on what is remembered -/

theorem gather_runs (s : Bool) (G : GraphSt) (K : Objects) (sepDS : Bool) (en : Nat → Bool) : ∀ (ds : List Decl) (cur result : Images),
    gather sepDS en cur (runsAll s G K ds) result = gather sepDS en cur (ds.map (·.pass)) result
  | [], _, _ => rfl
  | d :: ds, cur, result => by
    show gather sepDS en cur (d.runs s G K :: runsAll s G K ds) result = gather sepDS en cur (d.pass :: ds.map (·.pass)) result
    unfold gather
    have e1 : (d.runs s G K).layouts sepDS = d.pass.layouts sepDS := rfl
    have e2 : (d.runs s G K).id = d.pass.id := rfl
    rw [e1, e2]
    split
    · rfl
    · split
      · split
        · exact gather_runs s G K sepDS en ds _ _
        · exact gather_runs s G K sepDS en ds _ _
      · exact gather_runs s G K sepDS en ds _ _

theorem getNextState_runs (s : Bool) (G : GraphSt) (K : Objects) (en : Nat → Bool) (cur : AccessState) (ds : List Decl) :
    getNextState en cur (runsAll s G K ds) = getNextState en cur (ds.map (·.pass)) := by
  unfold getNextState
  have : ∀ ds : List Decl, ((runsAll s G K ds).find? (fun p => en p.id)).map (·.state)
      = ((ds.map (·.pass)).find? (fun p => en p.id)).map (·.state) := by
    intro ds
    induction ds with
    | nil => rfl
    | cons d ds ih =>
      show ((d.runs s G K :: runsAll s G K ds).find? (fun p => en p.id)).map (·.state)
        = ((d.pass :: ds.map (·.pass)).find? (fun p => en p.id)).map (·.state)
      simp only [List.find?_cons]
      have e2 : (d.runs s G K).id = d.pass.id := rfl
      rw [e2]
      cases en d.pass.id with
      | true => rfl
      | false => exact ih
  have h := this ds
  cases h1 : (runsAll s G K ds).find? (fun p => en p.id) with
  | none =>
    cases h2 : (ds.map (·.pass)).find? (fun p => en p.id) with
    | none => rfl
    | some q => rw [h1, h2] at h; simp at h
  | some p =>
    cases h2 : (ds.map (·.pass)).find? (fun p => en p.id) with
    | none => rw [h1, h2] at h; simp at h
    | some q => rw [h1, h2] at h; simpa using h

/-- What is announced to a pass. -/
def ann (env : Env) (out : Images) (d : Decl) (next : List Decl) : AccessState × LayoutMap :=
  if next.isEmpty then (d.pass.state, out.toMap)
  else (getNextState env.enabled d.pass.state (next.map (·.pass)),
    (gather env.sepDS env.enabled (d.pass.layouts env.sepDS) (next.map (·.pass)) []).toMap)

theorem announce_runs {env : Env} {G : GraphSt} (hG : G.outputs = out) (K : Objects) (d : Decl) (next : List Decl) (c : Ctx) :
    announce env G (d.runs env.sepDS G K) (runsAll env.sepDS G K next) c
      = c.setNext (ann env out d next).1 (ann env out d next).2 := by
  unfold announce ann
  have e : (runsAll env.sepDS G K next).isEmpty = next.isEmpty := by cases next <;> rfl
  rw [e, gather_runs, getNextState_runs, hG]
  cases next.isEmpty <;> rfl

/-! ### A pass -/

/-- The objects the drawing passes have were made for what is announced to them. -/
def KOk (env : Env) (out : Images) (index : Nat → Nat) : List Decl → Objects → Prop
  | [], _ => True
  | d :: next, K =>
    (env.enabled d.pass.id = true → ∀ w h draw, d.work = .draws w h draw → ∀ o, K d.pass.id (index d.pass.id) = some o →
      Outs env.sepDS out (ann env out d next).2 d.pass (index d.pass.id) o) ∧ KOk env out index next K

def Pending (V : View → Prop) (N : Ctx) : Prop := ∀ t ∈ N.implicit, ActionIn V t.action

theorem recordInto_recd {env : Env} {G : GraphSt} {p : RunPass} {index : Nat} {f f' : Frame}
    (e : recordInto env G p index f = some f') :
    (env.enabled p.id = true ∧ ∃ r, prepare env G p index f.recd = some r ∧ f'.recd = registerAll p (p.body index r))
    ∨ (env.enabled p.id = false ∧ f'.recd = registerAll p f.recd) := by
  unfold recordInto at e
  split at e
  · rename_i hen
    split at e
    · simp only at e
      have hr : (if (!f.initialised p.id index) = true then f.initialise p index else f).recd = f.recd := by
        split <;> rfl
      rw [hr] at e
      cases e1 : prepare env G p index f.recd with
      | none => rw [e1] at e; simp at e
      | some r =>
        rw [e1] at e
        simp only [Option.some.injEq] at e
        subst e
        exact Or.inl ⟨hen, r, rfl, rfl⟩
    · simp at e
  · rename_i hen
    simp only [Option.some.injEq] at e
    subst e
    exact Or.inr ⟨by simpa using hen, rfl⟩

/-- The frame when a pass is told what comes next. -/
def told (env : Env) (G : GraphSt) (K : Objects) (d : Decl) (next : List Decl) (f : Frame) : Frame :=
  { f with recd := { f.recd with ctx := announce env G (d.runs env.sepDS G K) (runsAll env.sepDS G K next) f.recd.ctx } }

theorem sim_told {env : Env} {G : GraphSt} (hG : G.outputs = out) {K : Objects} {d : Decl} {next : List Decl} {f : Frame}
    {T : Map} {N : Ctx} (h : Sim base G.final.images T N f.recd) :
    Sim base G.final.images T (N.setNext (ann env out d next).1 (ann env out d next).2) (told env G K d next f).recd := by
  have e : (told env G K d next f).recd.ctx = f.recd.ctx.setNext (ann env out d next).1 (ann env out d next).2 :=
    announce_runs hG K d next _
  refine ⟨?_, ?_, ?_⟩
  · rw [e]; exact h.cells
  · rw [e]; exact h.present
  · rw [e, ← h.rest]; rfl

/-- The layout announced to a pass that makes mipmaps. -/
def MOne (env : Env) (out : Images) (index : Nat → Nat) (d : Decl) (next : List Decl) : Prop :=
  env.enabled d.pass.id = true → (∃ en ty output, d.work = .mipmaps en ty output) → ∀ a, d.pass.images.head? = some a →
    ∀ v, a.img.view (index d.pass.id) = some v →
      (nextOf env.sepDS out (ann env out d next).2 d.pass v).layout ≠ Layout.undefined
      ∧ (nextOf env.sepDS out (ann env out d next).2 d.pass v).layout ≠ Layout.transferSrc
      ∧ (nextOf env.sepDS out (ann env out d next).2 d.pass v).layout ≠ Layout.transferDst

theorem told_one {env : Env} {G : GraphSt} {index : Nat → Nat} {d : Decl} {next : List Decl} (h : MipsTold env G index (d :: next)) :
    MOne env G.outputs index d next ∧ MipsTold env G index next := by
  refine ⟨?_, h.2⟩
  intro hen hm a ha v hv
  have := h.1 hen hm a ha v hv
  rwa [nextOf_eq (out := G.outputs) (nx := (ann env G.outputs d next).2) rfl (by
    unfold announce ann
    have e : (next.map (·.pass)).isEmpty = next.isEmpty := by cases next <;> rfl
    rw [e]
    cases next.isEmpty <;> rfl)] at this

/-- The body of a pass that neither draws nor makes mipmaps. -/
theorem steps_body (hT : TidyViews sepDS fmt V passes) (hne : ∀ v, V v → v.range.NonEmpty) {d : Decl} (hd : d.pass ∈ passes)
    (hw : WorkOk sepDS V passes d) (hdr : ∀ w h draw, d.work ≠ .draws w h draw)
    (hmi : ∀ en ty output, d.work ≠ .mipmaps en ty output) {nx : LayoutMap} (index : Nat) (T : Map) (N : Ctx)
    (hO : Ok V inp T) (hN : NOk V nx N) :
    ∃ S : Rec → Rec, (∀ G K r, d.body sepDS G K index r = S r) ∧ Steps base V inp out nx T N (fun _ r => S r) := by
  unfold WorkOk at hw
  unfold Decl.body
  cases hwk : d.work with
  | calls cs =>
    rw [hwk] at hw
    exact ⟨_, fun _ _ _ => rfl, steps_perform hT.tidy hne (cs index) (hw index) T N hO hN⟩
  | draws w h draw => exact absurd hwk (hdr w h draw)
  | imageCopy en size final =>
    exact ⟨_, fun _ _ _ => rfl, steps_getD hO hN (osteps_copyPairs hT.tidy hne en size final index _ d.pass.images (Nat.le_refl _)
      (fun a ha v hv => (hT.attached v ⟨d.pass, hd, a, ha, view_mem hv⟩).1) T N hO hN)⟩
  | imageBlit so ss dO dS fi => exact ⟨_, fun _ _ _ => rfl, steps_getD hO hN (osteps_imageBlit d.pass so ss dO dS fi index T N hO hN)⟩
  | bufferCopy o n => exact ⟨_, fun _ _ _ => rfl, steps_getD hO hN (osteps_bufferCopy d.pass o n index T N hO hN)⟩
  | bufferToImage o s => exact ⟨_, fun _ _ _ => rfl, steps_getD hO hN (osteps_bufferToImage d.pass o s index T N hO hN)⟩
  | imageToBuffer o s => exact ⟨_, fun _ _ _ => rfl, steps_getD hO hN (osteps_imageToBuffer d.pass o s index T N hO hN)⟩
  | mipmaps en ty output => exact absurd hwk (hmi en ty output)

/-- The object `d` has, if it draws, was made for what is announced. -/
def KOne (env : Env) (out : Images) (index : Nat → Nat) (d : Decl) (next : List Decl) (K : Objects) : Prop :=
  env.enabled d.pass.id = true → ∀ w h draw, d.work = .draws w h draw → ∀ o, K d.pass.id (index d.pass.id) = some o →
      Outs env.sepDS out (ann env out d next).2 d.pass (index d.pass.id) o

/-- The part of `Keeps` about one pass. -/
def KeepOne (env : Env) (G : GraphSt) (index : Nat → Nat) (d : Decl) (K : Objects) (f : Frame) (K' : Objects) : Prop :=
  ∀ w h draw, d.work = .draws w h draw → env.enabled d.pass.id = true → ∀ r, prepare env G d.pass (index d.pass.id) f.recd = some r →
    K' d.pass.id (index d.pass.id)
      = (recordPass env.sepDS G w h d.pass (K d.pass.id (index d.pass.id)) (draw (index d.pass.id)) (index d.pass.id) r).map (·.1)

theorem registerAll_runs (s : Bool) (G : GraphSt) (K : Objects) (d : Decl) (r : Rec) :
    registerAll (d.runs s G K) r = registerAll d.pass r := rfl

theorem prepare_runs (env : Env) (s : Bool) (G : GraphSt) (K : Objects) (d : Decl) (index : Nat) (r : Rec) :
    prepare env G (d.runs s G K) index r = prepare env G d.pass index r := rfl

theorem prepare_total (hT : TidyViews sepDS fmt V passes) (hne : ∀ v, V v → v.range.NonEmpty) (hin : ∀ v, V v → Whole inp v)
    (en : Nat → Bool) {p : RunPass} (hp : p ∈ passes) (index : Nat) (T : Map) (N : Ctx) {nx : LayoutMap} (hO : Ok V inp T) (hN : NOk V nx N) :
    (∀ G r, prepare ⟨sepDS, en⟩ G p index r = none)
    ∨ ∃ S, (∀ G r, prepare ⟨sepDS, en⟩ G p index r = some (S G r)) ∧ Steps base V inp out nx T N S :=
  osteps_prepare hT hne hin en hp index T N hO hN

theorem pass_sim (hT : TidyViews sepDS fmt V passes) (hne : ∀ v, V v → v.range.NonEmpty) (hin : ∀ v, V v → Whole inp v)
    (en : Nat → Bool) (index : Nat → Nat) {d : Decl} (hd : d.pass ∈ passes) (hw : WorkOk sepDS V passes d) (next : List Decl)
    (hM : MOne ⟨sepDS, en⟩ out index d next) (T : Map) (N : Ctx) (hO : Ok V inp T) (hN : Pending V N) :
    ∃ T' N', Ok V inp T' ∧ Pending V N' ∧ ∀ G K f f', Cond V inp out G → KOne ⟨sepDS, en⟩ out index d next K →
      Sim base G.final.images T N f.recd →
      recordInto ⟨sepDS, en⟩ G (d.runs sepDS G K) (index d.pass.id) (told ⟨sepDS, en⟩ G K d next f) = some f' →
      Sim base G.final.images T' N' f'.recd
      ∧ ∀ K', KeepOne ⟨sepDS, en⟩ G index d K (told ⟨sepDS, en⟩ G K d next f) K' → KOne ⟨sepDS, en⟩ out index d next K' := by
  have hN1 : NOk V (ann ⟨sepDS, en⟩ out d next).2 (N.setNext (ann ⟨sepDS, en⟩ out d next).1 (ann ⟨sepDS, en⟩ out d next).2) :=
    ⟨hN, rfl⟩
  by_cases hen : en d.pass.id = true
  · rcases prepare_total (base := base) (out := out) hT hne hin en hd (index d.pass.id) T _ hO hN1 with h1 | ⟨S, eS, T1, N1, hO1, hN1', hS⟩
    · refine ⟨T, N, hO, hN, ?_⟩
      intro G K f f' hG hK h e
      rcases recordInto_recd e with ⟨-, r, e1, -⟩ | ⟨e1, -⟩
      · rw [prepare_runs, h1] at e1; simp at e1
      · exact absurd (hen.symm.trans e1) (by simp)
    · by_cases hdr : ∃ w h draw, d.work = .draws w h draw
      · obtain ⟨w, h, draw, hwk⟩ := hdr
        have hD : Declares sepDS d.pass := by unfold WorkOk at hw; rw [hwk] at hw; exact hw
        by_cases hv : ∀ a ∈ d.pass.images, ∃ v, a.img.view (index d.pass.id) = some v
        · obtain ⟨ts, hts⟩ := targets_exist hv
          obtain ⟨T2, N2, hO2, hN2, hS2⟩ := steps_registerAll (base := base) (out := out) hT hd _ N1
            (ok_draw (out := out) (nx := (ann ⟨sepDS, en⟩ out d next).2) hT hd hD hts hO1) hN1'
          refine ⟨T2, N2, hO2, hN2.pending, ?_⟩
          intro G K f f' hG hK hs e
          have hs1 := sim_told (env := ⟨sepDS, en⟩) (K := K) (d := d) (next := next) hG.outputs hs
          rcases recordInto_recd e with ⟨-, r, e1, e2⟩ | ⟨e1, -⟩
          · rw [prepare_runs] at e1
            have e1' := e1
            rw [eS, Option.some.injEq] at e1'
            subst e1'
            have hs2 := hS G _ hG hs1
            obtain ⟨⟨o, r'⟩, eR⟩ := recordPass_some (sepDS := sepDS) (G := G) (w := w) (h := h) hv
              (K d.pass.id (index d.pass.id)) (draw (index d.pass.id)) (S G (told ⟨sepDS, en⟩ G K d next f).recd)
            obtain ⟨ho, hs3⟩ := sim_draw hT hne hd hts hN1' hG hs2 (hK hen w h draw hwk) eR
            refine ⟨?_, ?_⟩
            · rw [e2, registerAll_runs]
              have : (d.runs sepDS G K).body (index d.pass.id) (S G (told ⟨sepDS, en⟩ G K d next f).recd) = r' := by
                show d.body sepDS G K (index d.pass.id) _ = r'
                unfold Decl.body
                simp only [hwk]
                rw [eR]
                rfl
              rw [this]
              exact hS2 G _ hG hs3
            · intro K' hK' _ w' h' draw' hwk' o' ho'
              rw [hwk] at hwk'
              cases hwk'
              have := hK' w h draw hwk hen _ e1
              rw [ho', eR] at this
              simp only [Option.map_some, Option.some.injEq] at this
              rw [this]
              exact ho
          · exact absurd (hen.symm.trans e1) (by simp)
        · refine ⟨T, N, hO, hN, ?_⟩
          intro G K f f' hG hK hs e
          rcases recordInto_recd e with ⟨-, r, e1, -⟩ | ⟨e1, -⟩
          · rw [prepare_runs] at e1
            exact absurd (prepare_views e1) hv
          · exact absurd (hen.symm.trans e1) (by simp)
      have hdr' : ∀ w h draw, d.work ≠ .draws w h draw := fun w h draw hx => hdr ⟨w, h, draw, hx⟩
      by_cases hmp : ∃ en ty output, d.work = .mipmaps en ty output
      · obtain ⟨en', ty, output, hwk⟩ := hmp
        have hD := hw
        unfold WorkOk at hD
        rw [hwk] at hD
        by_cases hv : ∃ a v, d.pass.images.head? = some a ∧ a.img.view (index d.pass.id) = some v
        · obtain ⟨a, v, ha, hvw⟩ := hv
          obtain ⟨hmv, hvs⟩ := hD.2 a ha
          obtain ⟨d1, d2, d3⟩ := hvs v (view_mem hvw)
          obtain ⟨vV, vN⟩ := hT.attached v ⟨d.pass, hd, a, List.mem_of_mem_head? ha, view_mem hvw⟩
          obtain ⟨n1, n2, n3⟩ := hM hen ⟨en', ty, output, hwk⟩ a ha v hvw
          obtain ⟨T2, N2, hO2, hN2, hS2⟩ := steps_registerAll (base := base) (out := out) hT hd _ N1
            (ok_generate hT.tidy hO1 vV n1) hN1'
          refine ⟨T2, N2, hO2, hN2.pending, ?_⟩
          intro G K f f' hG hK hs e
          have hs1 := sim_told (env := ⟨sepDS, en⟩) (K := K) (d := d) (next := next) hG.outputs hs
          rcases recordInto_recd e with ⟨-, r, e1, e2⟩ | ⟨e1, -⟩
          · rw [prepare_runs] at e1
            have htr := tracked_head hT hne hin en hd ha hvw hmv hO hN1 hG hs1 e1
            rw [eS, Option.some.injEq] at e1
            subst e1
            refine ⟨?_, fun K' _ _ w h draw hwk => absurd hwk (hdr' w h draw)⟩
            have hs2 := hS G _ hG hs1
            rw [e2, registerAll_runs]
            have : (d.runs sepDS G K).body (index d.pass.id) (S G (told ⟨sepDS, en⟩ G K d next f).recd)
                = Mip.generate ⟨sepDS, en'⟩ G v ty (nextOf sepDS out (ann ⟨sepDS, en⟩ out d next).2 d.pass v)
                  (S G (told ⟨sepDS, en⟩ G K d next f).recd) := by
              show d.body sepDS G K (index d.pass.id) _ = _
              unfold Decl.body
              simp only [hwk, ha, hvw]
              unfold Mip.generateMipmaps
              simp only
              rw [nextOf_eq (out := out) (nx := (ann ⟨sepDS, en⟩ out d next).2) hG.outputs]
              have := hs2.rest
              rw [← hN1'.next, ← this]
              rfl
            rw [this]
            exact hS2 G _ hG (sim_generate hT en' hO1 hG.final hs2 vV vN d1 d2 d3 htr hD.1 n1 n2 n3 G)
          · exact absurd (hen.symm.trans e1) (by simp)
        · obtain ⟨T3, N3, hO3, hN3, hR⟩ := steps_registerAll (base := base) (out := out) hT hd T1 N1 hO1 hN1'
          refine ⟨T3, N3, hO3, hN3.pending, ?_⟩
          intro G K f f' hG hK hs e
          have hs1 := sim_told (env := ⟨sepDS, en⟩) (K := K) (d := d) (next := next) hG.outputs hs
          rcases recordInto_recd e with ⟨-, r, e1, e2⟩ | ⟨e1, -⟩
          · rw [prepare_runs, eS, Option.some.injEq] at e1
            subst e1
            refine ⟨?_, fun K' _ _ w h draw hwk => absurd hwk (hdr' w h draw)⟩
            rw [e2, registerAll_runs]
            have : (d.runs sepDS G K).body (index d.pass.id) (S G (told ⟨sepDS, en⟩ G K d next f).recd)
                = S G (told ⟨sepDS, en⟩ G K d next f).recd := by
              show d.body sepDS G K (index d.pass.id) _ = _
              unfold Decl.body
              simp only [hwk]
              split
              · rename_i a ha
                split
                · rename_i v hvw
                  exact absurd ⟨a, v, ha, hvw⟩ hv
                · rfl
              · rfl
            rw [this]
            exact hR G _ hG (hS G _ hG hs1)
          · exact absurd (hen.symm.trans e1) (by simp)
      · have hmp' : ∀ en ty output, d.work ≠ .mipmaps en ty output := fun a b c hx => hmp ⟨a, b, c, hx⟩
        obtain ⟨B, eB, T2, N2, hO2, hN2, hB⟩ := steps_body (base := base) (out := out) hT hne hd hw hdr' hmp' (index d.pass.id) T1 N1 hO1 hN1'
        obtain ⟨T3, N3, hO3, hN3, hR⟩ := steps_registerAll (base := base) (out := out) hT hd T2 N2 hO2 hN2
        refine ⟨T3, N3, hO3, hN3.pending, ?_⟩
        intro G K f f' hG hK hs e
        have hs1 := sim_told (env := ⟨sepDS, en⟩) (K := K) (d := d) (next := next) hG.outputs hs
        rcases recordInto_recd e with ⟨-, r, e1, e2⟩ | ⟨e1, -⟩
        · rw [prepare_runs, eS, Option.some.injEq] at e1
          subst e1
          refine ⟨?_, fun K' _ _ w h draw hwk => absurd hwk (hdr' w h draw)⟩
          rw [e2, registerAll_runs]
          have : (d.runs sepDS G K).body (index d.pass.id) (S G (told ⟨sepDS, en⟩ G K d next f).recd)
              = B (S G (told ⟨sepDS, en⟩ G K d next f).recd) := eB G K _
          rw [this]
          exact hR G _ hG (hB G _ hG (hS G _ hG hs1))
        · exact absurd (hen.symm.trans e1) (by simp)
  · obtain ⟨T2, N2, hO2, hN2, hS2⟩ := steps_registerAll (base := base) (out := out) hT hd T _ hO hN1
    refine ⟨T2, N2, hO2, hN2.pending, ?_⟩
    intro G K f f' hG hK hs e
    have hs1 := sim_told (env := ⟨sepDS, en⟩) (K := K) (d := d) (next := next) hG.outputs hs
    rcases recordInto_recd e with ⟨e1, -⟩ | ⟨-, e2⟩
    · exact absurd e1 hen
    · refine ⟨?_, fun K' _ e1 => absurd e1 hen⟩
      rw [e2, registerAll_runs]
      exact hS2 G _ hG hs1

/-! ### The passes -/

theorem told_eq (env : Env) (G : GraphSt) (K : Objects) (d : Decl) (next : List Decl) (f : Frame) :
    ({ f with recd := { f.recd with ctx := announce env G (d.runs env.sepDS G K) (runsAll env.sepDS G K next) f.recd.ctx } } : Frame)
      = told env G K d next f := rfl

theorem loop_cons {env : Env} {G : GraphSt} {K : Objects} {index : Nat → Nat} {d : Decl} {next : List Decl} {f f' : Frame}
    (e : recordLoop env G index (runsAll env.sepDS G K (d :: next)) f = some f') :
    ∃ f1, recordInto env G (d.runs env.sepDS G K) (index d.pass.id) (told env G K d next f) = some f1
      ∧ recordLoop env G index (runsAll env.sepDS G K next) f1 = some f' := by
  change recordLoop env G index (d.runs env.sepDS G K :: runsAll env.sepDS G K next) f = some f' at e
  unfold recordLoop at e
  simp only [told_eq] at e
  split at e
  · simp at e
  · rename_i f1 e1
    exact ⟨f1, e1, e⟩

/-- `Keeps`, from any point of the recording. -/
def KeepsFrom (env : Env) (G : GraphSt) (index : Nat → Nat) (ds : List Decl) (f : Frame) (K K' : Objects) : Prop :=
  ∀ d ∈ ds, ∀ w h draw, d.work = .draws w h draw → ∀ r,
    Enters env G index (runsAll env.sepDS G K ds) f (d.runs env.sepDS G K) r →
    K' d.pass.id (index d.pass.id)
      = (recordPass env.sepDS G w h d.pass (K d.pass.id (index d.pass.id)) (draw (index d.pass.id)) (index d.pass.id) r).map (·.1)

theorem keeps_cons {env : Env} {G : GraphSt} {K K' : Objects} {index : Nat → Nat} {d : Decl} {next : List Decl} {f f1 : Frame}
    (hk : KeepsFrom env G index (d :: next) f K K')
    (e : recordInto env G (d.runs env.sepDS G K) (index d.pass.id) (told env G K d next f) = some f1) :
    KeepOne env G index d K (told env G K d next f) K' ∧ KeepsFrom env G index next f1 K K' := by
  refine ⟨?_, ?_⟩
  · intro w h draw hwk hen r er
    exact hk d (by simp) w h draw hwk r (Or.inl ⟨rfl, hen, er⟩)
  · intro x hx w h draw hwk r he
    exact hk x (by simp [hx]) w h draw hwk r (Or.inr ⟨f1, e, he⟩)

theorem loop_sim (hT : TidyViews sepDS fmt V passes) (hne : ∀ v, V v → v.range.NonEmpty) (hin : ∀ v, V v → Whole inp v)
    (en : Nat → Bool) (index : Nat → Nat) : ∀ (ds : List Decl), (∀ d ∈ ds, d.pass ∈ passes ∧ WorkOk sepDS V passes d) →
    (∃ G0 : GraphSt, G0.outputs = out ∧ MipsTold ⟨sepDS, en⟩ G0 index ds) → ∀ (T : Map) (N : Ctx), Ok V inp T → Pending V N →
    ∃ T' N', Ok V inp T' ∧ ∀ G K f f', Cond V inp out G → KOk ⟨sepDS, en⟩ out index ds K → Sim base G.final.images T N f.recd →
      recordLoop ⟨sepDS, en⟩ G index (runsAll sepDS G K ds) f = some f' →
      Sim base G.final.images T' N' f'.recd
      ∧ ∀ K', KeepsFrom ⟨sepDS, en⟩ G index ds f K K' → KOk ⟨sepDS, en⟩ out index ds K' := by
  intro ds
  induction ds with
  | nil =>
    intro _ _ T N hO _
    refine ⟨T, N, hO, ?_⟩
    intro G K f f' _ _ h e
    simp only [runsAll, List.map_nil, recordLoop, Option.some.injEq] at e
    subst e
    exact ⟨h, fun _ _ => trivial⟩
  | cons d next ih =>
    rintro hds ⟨G0, hG0, hM⟩ T N hO hN
    subst hG0
    obtain ⟨m1, m2⟩ := told_one hM
    obtain ⟨T1, N1, hO1, hN1, h1⟩ := pass_sim (base := base) (out := G0.outputs) hT hne hin en index (hds d (by simp)).1 (hds d (by simp)).2
      next m1 T N hO hN
    obtain ⟨T2, N2, hO2, h2⟩ := ih (fun x hx => hds x (by simp [hx])) ⟨G0, rfl, m2⟩ T1 N1 hO1 hN1
    refine ⟨T2, N2, hO2, ?_⟩
    intro G K f f' hG hK h e
    obtain ⟨f1, e1, e2⟩ := loop_cons (env := ⟨sepDS, en⟩) e
    obtain ⟨i1, i2⟩ := h1 G K f f1 hG hK.1 h e1
    obtain ⟨j1, j2⟩ := h2 G K f1 f' hG hK.2 i1 e2
    refine ⟨j1, ?_⟩
    intro K' hk
    obtain ⟨k1, k2⟩ := keeps_cons hk e1
    exact ⟨i2 K' k1, j2 K' k2⟩

/-- Drawing again in the same context, with the object drawn with, records the same. -/
theorem draw_again (hT : TidyViews sepDS fmt V passes) (hne : ∀ v, V v → v.range.NonEmpty) {p : RunPass} (hp : p ∈ passes)
    {index w h : Nat} {nx : LayoutMap} {T : Map} {N : Ctx} (hv : ∀ a ∈ p.images, ∃ v, a.img.view index = some v)
    (hN : NOk V nx N) {G : GraphSt} (hG : Cond V inp out G) {r r1 r2 : Rec} (hS : Sim base G.final.images T N r)
    {cached : Option PassObj} (hc : ∀ o, cached = some o → Outs sepDS out nx p index o) {draw : List Nat} {o o2 : PassObj}
    (e1 : recordPass sepDS G w h p cached draw index r = some (o, r1))
    (e2 : recordPass sepDS G w h p (some o) draw index r = some (o2, r2)) : r2 = r1 := by
  obtain ⟨ts, hts⟩ := targets_exist hv
  obtain ⟨ho, s1⟩ := sim_draw hT hne hp hts hN hG hS hc e1
  obtain ⟨-, s2⟩ := sim_draw hT hne hp hts hN hG hS (by rintro _ ⟨⟩; exact ho) e2
  have hctx := sim_unique s2 s1
  have hcmds : r2.cmds = r1.cmds := by
    unfold recordPass at e1 e2
    obtain ⟨⟨x1, b1, c1⟩, i1, j1⟩ := Option.map_eq_some_iff.1 e1
    obtain ⟨⟨x2, b2, c2⟩, i2, j2⟩ := Option.map_eq_some_iff.1 e2
    simp only [Prod.mk.injEq] at j1 j2
    obtain ⟨rfl, rfl⟩ := j1
    obtain ⟨rfl, rfl⟩ := j2
    have : x2 = x1 := by
      rcases initialise_cases i2 with ⟨-, h2, -⟩ | ⟨hb, h2⟩
      · exact (Option.some.inj h2).symm
      · rcases initialise_cases i1 with ⟨-, h1, h3, h4, h5, -⟩ | ⟨-, h1⟩
        · exfalso
          unfold initialise at i2
          simp only [h3, h4, h5, beq_self_eq_true, Bool.and_self, if_true, Option.some.injEq, Prod.mk.injEq] at i2
          exact absurd (i2.2.1.trans hb) (by simp)
        · rw [h1] at h2
          simp only [Option.some.injEq, Prod.mk.injEq] at h2
          exact h2.1.symm
    subst this
    rfl
  cases r2
  cases r1
  simp only at hctx hcmds
  rw [hctx, hcmds]

/-- A frame recorded with the objects the frame before drew with, the graph remembering the same, records the same. -/
theorem lockstep (hT : TidyViews sepDS fmt V passes) (hne : ∀ v, V v → v.range.NonEmpty) (hin : ∀ v, V v → Whole inp v)
    (en : Nat → Bool) (index : Nat → Nat) {G : GraphSt} (hG : Cond V inp out G) {K K' : Objects} : ∀ (ds : List Decl),
    (∀ d ∈ ds, d.pass ∈ passes ∧ WorkOk sepDS V passes d) → (∃ G0 : GraphSt, G0.outputs = out ∧ MipsTold ⟨sepDS, en⟩ G0 index ds) →
    ∀ (T : Map) (N : Ctx), Ok V inp T → Pending V N → ∀ f1 f2 f1' f2', KOk ⟨sepDS, en⟩ out index ds K → Sim base G.final.images T N f1.recd → f2.recd = f1.recd →
      KeepsFrom ⟨sepDS, en⟩ G index ds f1 K K' →
      recordLoop ⟨sepDS, en⟩ G index (runsAll sepDS G K ds) f1 = some f1' →
      recordLoop ⟨sepDS, en⟩ G index (runsAll sepDS G K' ds) f2 = some f2' → f2'.recd = f1'.recd := by
  intro ds
  induction ds with
  | nil =>
    intro _ _ T N _ _ f1 f2 f1' f2' _ _ h _ e1 e2
    simp only [runsAll, List.map_nil, recordLoop, Option.some.injEq] at e1 e2
    subst e1 e2
    exact h
  | cons d next ih =>
    rintro hds ⟨G0, hG0, hM⟩ T N hO hN f1 f2 f1' f2' hK hs heq hk e1 e2
    subst hG0
    obtain ⟨m1, m2⟩ := told_one hM
    obtain ⟨hd, hw⟩ := hds d (by simp)
    obtain ⟨T1, N1, hO1, hN1, h1⟩ := pass_sim (base := base) (out := G0.outputs) hT hne hin en index hd hw next m1 T N hO hN
    obtain ⟨g1, a1, b1⟩ := loop_cons (env := ⟨sepDS, en⟩) e1
    obtain ⟨g2, a2, b2⟩ := loop_cons (env := ⟨sepDS, en⟩) e2
    obtain ⟨i1, -⟩ := h1 G K f1 g1 hG hK.1 hs a1
    obtain ⟨k1, k2⟩ := keeps_cons hk a1
    refine ih (fun x hx => hds x (by simp [hx])) ⟨G0, rfl, m2⟩ T1 N1 hO1 hN1 g1 g2 f1' f2' hK.2 i1 ?_ k2 b1 b2
    have htold : (told ⟨sepDS, en⟩ G K' d next f2).recd = (told ⟨sepDS, en⟩ G K d next f1).recd := by
      unfold told
      simp only [heq, announce_runs hG.outputs]
    rcases recordInto_recd a1 with ⟨hen, r, e3, e4⟩ | ⟨hen, e4⟩
    · rcases recordInto_recd a2 with ⟨-, r', e5, e6⟩ | ⟨hen', -⟩
      · rw [prepare_runs] at e3 e5
        rw [htold, e3, Option.some.injEq] at e5
        subst e5
        rw [e4, e6, registerAll_runs, registerAll_runs]
        congr 1
        show d.body sepDS G K' (index d.pass.id) r = d.body sepDS G K (index d.pass.id) r
        unfold Decl.body
        cases hwk : d.work with
        | draws w h draw =>
          simp only
          have hv := prepare_views e3
          have hN1 : NOk V (ann ⟨sepDS, en⟩ G0.outputs d next).2 (N.setNext (ann ⟨sepDS, en⟩ G0.outputs d next).1 (ann ⟨sepDS, en⟩ G0.outputs d next).2) :=
            ⟨hN, rfl⟩
          have hs1 := sim_told (env := ⟨sepDS, en⟩) (K := K) (d := d) (next := next) hG.outputs hs
          rcases prepare_total (base := base) (out := G0.outputs) hT hne hin en hd (index d.pass.id) T _ hO hN1 with
            hx | ⟨S, eS, T2, N2, hO2, hN2, hS⟩
          · rw [hx] at e3; simp at e3
          · rw [eS, Option.some.injEq] at e3
            have hs2 := hS G _ hG hs1
            rw [e3] at hs2
            obtain ⟨⟨o, r1⟩, eR1⟩ := recordPass_some (sepDS := sepDS) (G := G) (w := w) (h := h) hv
              (K d.pass.id (index d.pass.id)) (draw (index d.pass.id)) r
            obtain ⟨⟨o2, r2⟩, eR2⟩ := recordPass_some (sepDS := sepDS) (G := G) (w := w) (h := h) hv
              (K' d.pass.id (index d.pass.id)) (draw (index d.pass.id)) r
            have hK' := k1 w h draw hwk hen r (by rw [eS, e3])
            simp only [eR1, Option.map_some] at hK'
            rw [eR1, eR2]
            rw [hK'] at eR2
            exact draw_again hT hne hd hv hN2 hG hs2 (hK.1 hen w h draw hwk) eR1 eR2
        | _ => rfl
      · exact absurd (hen.symm.trans hen') (by simp)
    · rcases recordInto_recd a2 with ⟨hen', -⟩ | ⟨-, e6⟩
      · exact absurd (hen'.symm.trans hen) (by simp)
      · rw [e4, e6, registerAll_runs, registerAll_runs, htold]

/-! ### Frames -/

theorem firstAnnounce_runs (s : Bool) (G : GraphSt) (K : Objects) (ds : List Decl) (c : Ctx) :
    firstAnnounce s (runsAll s G K ds) c = firstAnnounce s (ds.map (·.pass)) c := by
  cases ds <;> rfl

/-- The frame before anything is recorded is as these say. -/
theorem start_sim (deps : List Ctx) (hst : ∀ v, V v → Whole (startCtx deps).images v) (ds : List Decl) :
    ∃ T N, Ok V inp T ∧ Pending V N ∧ ∀ (G : GraphSt) (K : Objects) (ini : Nat → Nat → Bool) (log : List Event),
      Sim (fun i => ((startCtx deps).images i).isSome = true) G.final.images T N
        (frameStart sepDS deps (runsAll sepDS G K ds) ini log).recd := by
  refine ⟨fun i l m => .is ((startCtx deps).images.at i l m), rest (firstAnnounce sepDS (ds.map (·.pass)) (startCtx deps)), ?_, ?_, ?_⟩
  · refine ⟨?_, ?_⟩
    · intro v hv
      rcases hst v hv with h | ⟨s, hs, h⟩
      · exact ⟨.is none, trivial, fun l m hl => by rw [h l m hl]⟩
      · exact ⟨.is (some s), hs, fun l m hl => by rw [h l m hl]⟩
    · intro i l m h
      simp at h
  · intro t ht
    have h1 := (firstAnnounce_keeps sepDS (ds.map (·.pass)) (startCtx deps)).2
    have h2 : t ∈ (firstAnnounce sepDS (ds.map (·.pass)) (startCtx deps)).implicit := ht
    rw [h1, startCtx_implicit] at h2
    simp at h2
  · intro G K ini log
    unfold frameStart
    rw [firstAnnounce_runs]
    have h1 := (firstAnnounce_keeps sepDS (ds.map (·.pass)) (startCtx deps)).1
    refine ⟨?_, ?_, rfl⟩
    · intro i l m
      simp only [h1]
      rfl
    · intro i
      simp only [h1]
      constructor
      · exact Or.inl
      · rintro (h | ⟨l, m, h⟩)
        · exact h
        · unfold LayoutMap.at at h
          cases hx : (startCtx deps).images i with
          | none => rw [hx] at h; simp at h
          | some x => rfl

theorem record_frame {env : Env} {G G' : GraphSt} {deps : List Ctx} {index : Nat → Nat} {ps : List RunPass}
    {ini : Nat → Nat → Bool} {log : List Event} {f : Frame} (e : record env G deps index ps ini log = some (G', f)) :
    recordLoop env G index ps (frameStart env.sepDS deps ps ini log) = some f ∧ G' = { G with final := f.recd.ctx } := by
  unfold record at e
  simp only at e
  unfold frameStart
  split at e
  · simp at e
  · rename_i f1 e1
    simp only [Option.some.injEq, Prod.mk.injEq] at e
    obtain ⟨rfl, rfl⟩ := e
    exact ⟨e1, rfl⟩

/-- C75 (partial: tidy graphs, whose passes make calls on the recording context, draw, transfer or make mipmaps). A graph whose passes,
indices, enabled passes and dependencies stay the same is recorded again and again. After each recording it remembers the
same. From the second recording on, each records the same commands. -/
theorem settles_partial {ds : List Decl} (hT : TidyViews sepDS fmt V (ds.map (·.pass))) (hne : ∀ v, V v → v.range.NonEmpty)
    (hw : ∀ d ∈ ds, WorkOk sepDS V (ds.map (·.pass)) d) (en : Nat → Bool) (index : Nat → Nat) (deps : List Ctx) {G : GraphSt}
    (hin : ∀ v, V v → Whole G.inputs v) (hfin : ∀ v, V v → Whole G.final.images v)
    (hst : ∀ v, V v → Whole (startCtx deps).images v) (hM : MipsTold ⟨sepDS, en⟩ G index ds)
    {ini : Nat → Nat → Bool} {log : List Event} {out : List (List Cmd × GraphSt)}
    (hR : Repeats ⟨sepDS, en⟩ deps index ds G (fun _ _ => none) ini log out) :
    (∀ (i j : Nat) x y, out[i]? = some x → out[j]? = some y → x.2 = y.2)
    ∧ ∀ (i j : Nat) x y, 1 ≤ i → 1 ≤ j → out[i]? = some x → out[j]? = some y → x.1 = y.1 := by
  have hds : ∀ d ∈ ds, d.pass ∈ ds.map (·.pass) ∧ WorkOk sepDS V (ds.map (·.pass)) d :=
    fun d hd => ⟨List.mem_map_of_mem (f := fun (d : Decl) => d.pass) hd, hw d hd⟩
  obtain ⟨T0, N0, hO0, hN0, hs0⟩ := start_sim (sepDS := sepDS) (V := V) (inp := G.inputs) deps hst ds
  obtain ⟨T, N, hO, hL⟩ := loop_sim (base := fun i => ((startCtx deps).images i).isSome = true) (out := G.outputs)
    hT hne hin en index ds hds ⟨G, rfl, hM⟩ T0 N0 hO0 hN0
  -- a frame
  have frame : ∀ (H : GraphSt) (K K' : Objects) ini log H' f, Cond V G.inputs G.outputs H → KOk ⟨sepDS, en⟩ G.outputs index ds K →
      record ⟨sepDS, en⟩ H deps index (runsAll sepDS H K ds) ini log = some (H', f) →
      Keeps ⟨sepDS, en⟩ H index ds (frameStart sepDS deps (runsAll sepDS H K ds) ini log) K K' →
      Cond V G.inputs G.outputs H' ∧ KOk ⟨sepDS, en⟩ G.outputs index ds K'
      ∧ Sim (fun i => ((startCtx deps).images i).isSome = true) H.final.images T N f.recd := by
    intro H K K' ini log H' f hH hK e hk
    obtain ⟨e1, rfl⟩ := record_frame e
    obtain ⟨s1, k1⟩ := hL H K _ f hH hK (hs0 H K ini log) e1
    exact ⟨⟨hH.inputs, hH.outputs, fun v hv => sim_view hO s1 hH.final hv⟩, k1 K' hk, s1⟩
  -- frames once the graph remembers what it always will
  have settled : ∀ H K ini log out, Repeats ⟨sepDS, en⟩ deps index ds H K ini log out → ∀ K0 ini0 log0 f0 H0,
      Cond V G.inputs G.outputs H → KOk ⟨sepDS, en⟩ G.outputs index ds K0 → KOk ⟨sepDS, en⟩ G.outputs index ds K →
      record ⟨sepDS, en⟩ H deps index (runsAll sepDS H K0 ds) ini0 log0 = some (H0, f0) →
      Keeps ⟨sepDS, en⟩ H index ds (frameStart sepDS deps (runsAll sepDS H K0 ds) ini0 log0) K0 K → H0 = H →
      ∀ x ∈ out, x = (f0.recd.cmds, H) := by
    intro H K ini log out hR
    induction hR with
    | done => intro _ _ _ _ _ _ _ _ _ _ _ x hx; simp at hx
    | @again H K ini log K' H' f out e hk hrest ih =>
      intro K0 ini0 log0 f0 H0 hH hK0 hK e0 hk0 hH0 x hx
      obtain ⟨h1, h2, h3⟩ := frame H K K' ini log H' f hH hK e hk
      have heq : f.recd = f0.recd := by
        obtain ⟨a1, -⟩ := record_frame e0
        obtain ⟨a2, -⟩ := record_frame e
        refine lockstep hT hne hin en index hH ds hds ⟨G, rfl, hM⟩ T0 N0 hO0 hN0 _ _ _ _ hK0 (hs0 H K0 ini0 log0) ?_ hk0 a1 a2
        unfold frameStart
        simp only [firstAnnounce_runs]
      have hH' : H' = H := by
        obtain ⟨-, b1⟩ := record_frame e0
        obtain ⟨-, b2⟩ := record_frame e
        rw [b2, heq, ← b1, hH0]
      subst hH'
      have := ih K ini log f H' h1 hK h2 e hk rfl
      rcases List.mem_cons.1 hx with rfl | hx
      · rw [heq]
      · rw [this x hx, heq]
  have hK0 : KOk ⟨sepDS, en⟩ G.outputs index ds (fun _ _ => none) := by
    have : ∀ ds, KOk ⟨sepDS, en⟩ G.outputs index ds (fun _ _ => none) := by
      intro ds
      induction ds with
      | nil => trivial
      | cons d ds ih => exact ⟨fun _ _ _ _ _ _ h => by simp at h, ih⟩
    exact this ds
  cases hR with
  | done => simp
  | @again _ _ _ _ K1 G1 f1 out1 e1 hk1 hrest1 =>
    obtain ⟨c1, k1, s1⟩ := frame G _ K1 ini log G1 f1 ⟨rfl, rfl, hfin⟩ hK0 e1 hk1
    obtain ⟨-, hG1⟩ := record_frame e1
    have hall : ∃ cs, ∀ x ∈ out1, x = (cs, G1) := by
      cases hrest1 with
      | done => exact ⟨[], by simp⟩
      | @again _ _ _ _ K2 G2 f2 out2 e2 hk2 hrest2 =>
        obtain ⟨c2, k2, s2⟩ := frame G1 K1 K2 _ _ G2 f2 c1 k1 e2 hk2
        obtain ⟨-, hG2⟩ := record_frame e2
        have hf1 : G1.final.images = f1.recd.ctx.images := by rw [hG1]
        have s2' : Sim (fun i => ((startCtx deps).images i).isSome = true) G.final.images T N f2.recd := by
          refine ⟨?_, s2.present, s2.rest⟩
          intro i l m
          rw [s2.cells, hf1, s1.cells, val_val]
        have hctx := sim_unique s2' s1
        have h12 : G2 = G1 := by
          rw [hG2, hG1, hctx]
        subst h12
        refine ⟨f2.recd.cmds, ?_⟩
        intro x hx
        rcases List.mem_cons.1 hx with rfl | hx
        · rfl
        · exact settled _ _ _ _ _ hrest2 K1 _ _ f2 G2 c1 k1 k2 e2 hk2 rfl x hx
    obtain ⟨cs, hcs⟩ := hall
    have hmem : ∀ (i : Nat) x, ((f1.recd.cmds, G1) :: out1)[i + 1]? = some x → x = (cs, G1) := by
      intro i x h
      simp only [List.getElem?_cons_succ] at h
      exact hcs x (List.mem_of_getElem? h)
    have h2 : ∀ (i : Nat) x, ((f1.recd.cmds, G1) :: out1)[i]? = some x → x.2 = G1 := by
      intro i x h
      cases i with
      | zero => simp at h; rw [← h]
      | succ i => rw [hmem i x h]
    refine ⟨fun i j x y hx hy => (h2 i x hx).trans (h2 j y hy).symm, ?_⟩
    intro i j x y hi hj hx hy
    obtain ⟨i, rfl⟩ : ∃ k, i = k + 1 := ⟨i - 1, by omega⟩
    obtain ⟨j, rfl⟩ : ∃ k, j = k + 1 := ⟨j - 1, by omega⟩
    rw [hmem i x hx, hmem j y hy]

/-! ### Such recordings exist -/

theorem enters_unique {env : Env} {G : GraphSt} {index : Nat → Nat} {q : RunPass} : ∀ {ps : List RunPass} {f : Frame} {r r' : Rec},
    (ps.map (·.id)).Nodup → Enters env G index ps f q r → Enters env G index ps f q r' → r = r'
  | [], _, _, _, _, h, _ => absurd h (by simp [Enters])
  | p :: next, f, r, r', hn, h, h' => by
    simp only [List.map_cons, List.nodup_cons] at hn
    rcases h with ⟨e1, -, h1⟩ | ⟨f1, e1, h1⟩
    · rcases h' with ⟨-, -, h2⟩ | ⟨f2, e2, h2⟩
      · exact Option.some.inj (h1.symm.trans h2)
      · exact absurd (List.mem_map_of_mem (f := fun (p : RunPass) => p.id) (enters_mem h2)) (by rw [e1]; exact hn.1)
    · rcases h' with ⟨e2, -, h2⟩ | ⟨f2, e2, h2⟩
      · exact absurd (List.mem_map_of_mem (f := fun (p : RunPass) => p.id) (enters_mem h1)) (by rw [e2]; exact hn.1)
      · have := Option.some.inj (e1.symm.trans e2)
        subst this
        exact enters_unique hn.2 h1 h2

theorem nodup_inj {α : Type} (f : α → Nat) : ∀ {l : List α}, (l.map f).Nodup → ∀ {a b : α}, a ∈ l → b ∈ l → f a = f b → a = b
  | [], _, _, _, h, _, _ => absurd h (by simp)
  | x :: l, hn, a, b, ha, hb, h => by
    simp only [List.map_cons, List.nodup_cons] at hn
    rcases List.mem_cons.1 ha with rfl | ha
    · rcases List.mem_cons.1 hb with rfl | hb
      · rfl
      · exact absurd (List.mem_map_of_mem (f := f) hb) (by rw [← h]; exact hn.1)
    · rcases List.mem_cons.1 hb with rfl | hb
      · exact absurd (List.mem_map_of_mem (f := f) ‹a ∈ l›) (by rw [h]; exact hn.1)
      · exact nodup_inj f hn.2 ha hb h

theorem recordInto_some_iff {env : Env} {G : GraphSt} {p : RunPass} {index : Nat} {f : Frame} :
    (∃ f', recordInto env G p index f = some f')
    ↔ (env.enabled p.id = true → index < p.maxPassCount ∧ ∃ r, prepare env G p index f.recd = some r) := by
  have hr : (if (!f.initialised p.id index) = true then f.initialise p index else f).recd = f.recd := by
    split <;> rfl
  unfold recordInto
  by_cases h1 : env.enabled p.id = true
  · by_cases h2 : index < p.maxPassCount
    · simp only [h1, h2, if_true, hr, true_and, true_implies]
      cases prepare env G p index f.recd with
      | none => simp
      | some r => simp
    · simp [h1, h2]
  · simp [h1]

open Classical in
/-- The objects after a frame. -/
theorem keeps_exists {env : Env} {G : GraphSt} {index : Nat → Nat} {ds : List Decl} (hn : (ds.map (·.pass.id)).Nodup) (f : Frame)
    (K : Objects) : ∃ K', Keeps env G index ds f K K' := by
  let P : Nat → Option PassObj → Prop := fun i o => ∃ d ∈ ds, d.pass.id = i ∧ ∃ w h draw, d.work = .draws w h draw ∧ ∃ r,
    Enters env G index (runsAll env.sepDS G K ds) f (d.runs env.sepDS G K) r ∧
    o = (recordPass env.sepDS G w h d.pass (K d.pass.id (index d.pass.id)) (draw (index d.pass.id)) (index d.pass.id) r).map (·.1)
  have hP : ∀ i o o', P i o → P i o' → o = o' := by
    rintro i o o' ⟨d, hd, rfl, w, h, draw, hw, r, hr, rfl⟩ ⟨d', hd', hi, w', h', draw', hw', r', hr', rfl⟩
    have hdd : d' = d := nodup_inj (fun (d : Decl) => d.pass.id) hn hd' hd hi
    subst hdd
    rw [hw] at hw'
    cases hw'
    have hn' : ((runsAll env.sepDS G K ds).map (·.id)).Nodup := by
      unfold runsAll
      rw [List.map_map]
      exact hn
    rw [enters_unique hn' hr hr']
  refine ⟨fun i _ => if h : ∃ o, P i o then h.choose else none, ?_⟩
  intro d hd w h draw hw r hr
  have hex : ∃ o, P d.pass.id o := ⟨_, d, hd, rfl, w, h, draw, hw, r, hr, rfl⟩
  simp only [hex, dif_pos]
  exact hP _ _ _ hex.choose_spec ⟨d, hd, rfl, w, h, draw, hw, r, hr, rfl⟩

/-- Whether a frame can be recorded does not depend on what the graph remembers, nor on the objects. -/
theorem record_again {ds : List Decl} (hT : TidyViews sepDS fmt V (ds.map (·.pass))) (hne : ∀ v, V v → v.range.NonEmpty)
    (en : Nat → Bool) (index : Nat → Nat) (deps : List Ctx) {G G1 : GraphSt} {K : Objects} {ini : Nat → Nat → Bool} {log : List Event}
    {f1 : Frame} (e : record ⟨sepDS, en⟩ G deps index (runsAll sepDS G K ds) ini log = some (G1, f1))
    (H : GraphSt) (K' : Objects) (ini' : Nat → Nat → Bool) (log' : List Event) :
    ∃ H' f', record ⟨sepDS, en⟩ H deps index (runsAll sepDS H K' ds) ini' log' = some (H', f') := by
  have key : ∀ xs : List Decl, (∀ d ∈ xs, d.pass ∈ ds.map (·.pass)) → ∀ f g f',
      recordLoop ⟨sepDS, en⟩ G index (runsAll sepDS G K xs) f = some f' →
      ∃ g', recordLoop ⟨sepDS, en⟩ H index (runsAll sepDS H K' xs) g = some g' := by
    intro xs
    induction xs with
    | nil => intro _ f g f' _; exact ⟨g, rfl⟩
    | cons d next ih =>
      intro hs f g f' e
      obtain ⟨f2, e1, e2⟩ := loop_cons (env := ⟨sepDS, en⟩) e
      have : ∃ g2, recordInto ⟨sepDS, en⟩ H (d.runs sepDS H K') (index d.pass.id) (told ⟨sepDS, en⟩ H K' d next g) = some g2 := by
        refine recordInto_some_iff.2 fun hen => ?_
        obtain ⟨hm, r, hr⟩ := recordInto_some_iff.1 ⟨f2, e1⟩ hen
        refine ⟨hm, ?_⟩
        have hO : Ok V LayoutMap.empty (fun _ _ _ => .is none) := ⟨fun v _ => ⟨.is none, trivial, fun _ _ _ => rfl⟩, by simp⟩
        have hN : NOk V Ctx.new.nextImages Ctx.new := ⟨by simp [Ctx.new], rfl⟩
        rcases prepare_total (base := fun _ => False) (out := []) hT hne (inp := LayoutMap.empty)
          (fun v _ => Or.inl fun _ _ _ => rfl) en (hs d (by simp)) (index d.pass.id) _ _ hO hN with hx | ⟨S, hx, -⟩
        · rw [prepare_runs, hx] at hr
          simp at hr
        · rw [prepare_runs, hx]
          exact ⟨_, rfl⟩
      obtain ⟨g2, e3⟩ := this
      obtain ⟨g', e4⟩ := ih (fun x hx => hs x (by simp [hx])) f2 g2 f' e2
      refine ⟨g', ?_⟩
      show recordLoop ⟨sepDS, en⟩ H index (d.runs sepDS H K' :: runsAll sepDS H K' next) g = some g'
      unfold recordLoop
      have : recordInto ⟨sepDS, en⟩ H (d.runs sepDS H K') (index (d.runs sepDS H K').id)
        { g with recd := { g.recd with ctx := announce ⟨sepDS, en⟩ H (d.runs sepDS H K') (runsAll sepDS H K' next) g.recd.ctx } } = some g2 := e3
      simp only [this]
      exact e4
  obtain ⟨e1, -⟩ := record_frame e
  obtain ⟨g', e2⟩ := key ds (fun d hd => List.mem_map_of_mem (f := fun (d : Decl) => d.pass) hd) _
    (frameStart sepDS deps (runsAll sepDS H K' ds) ini' log') _ e1
  refine ⟨{ H with final := g'.recd.ctx }, g', ?_⟩
  unfold record
  unfold frameStart at e2
  simp only [e2]

/-- A graph that can be recorded once can be recorded any number of times. -/
theorem repeats_exist {ds : List Decl} (hT : TidyViews sepDS fmt V (ds.map (·.pass))) (hne : ∀ v, V v → v.range.NonEmpty)
    (hn : (ds.map (·.pass.id)).Nodup)
    (en : Nat → Bool) (index : Nat → Nat) (deps : List Ctx) {G G1 : GraphSt} {K : Objects} {ini : Nat → Nat → Bool} {log : List Event}
    {f1 : Frame} (e : record ⟨sepDS, en⟩ G deps index (runsAll sepDS G K ds) ini log = some (G1, f1)) (n : Nat) :
    ∃ out, Repeats ⟨sepDS, en⟩ deps index ds G K ini log out ∧ out.length = n := by
  have key : ∀ n (H : GraphSt) (K' : Objects) ini' log', ∃ out, Repeats ⟨sepDS, en⟩ deps index ds H K' ini' log' out ∧ out.length = n := by
    intro n
    induction n with
    | zero => intro H K' ini' log'; exact ⟨[], .done _ _ _ _, rfl⟩
    | succ n ih =>
      intro H K' ini' log'
      obtain ⟨H', f', e'⟩ := record_again hT hne en index deps e H K' ini' log'
      obtain ⟨K2, hk⟩ := keeps_exists (env := ⟨sepDS, en⟩) (G := H) (index := index) hn
        (frameStart sepDS deps (runsAll sepDS H K' ds) ini' log') K'
      obtain ⟨out, h1, h2⟩ := ih H' K2 f'.initialised f'.log
      exact ⟨_, .again e' hk h1, by simp [h2]⟩
  exact key n G K ini log

/-! ### An example -/

/-- A pass samples an image, then another one draws over it. -/
def sDecls : List Decl := [⟨eSample, .calls fun _ => []⟩, ⟨eDraw, .draws 64 64 fun _ => [1]⟩]

theorem sDecls_tidy : TidyViews false (fun _ => 37) xV (sDecls.map (·.pass)) := by
  have himg : ∀ p ∈ sDecls.map (·.pass), ∀ a ∈ p.images, a.img.views = [xView] ∧ a.getImageLayout false ≠ Layout.undefined := by
    intro p hp a ha
    simp only [sDecls, eSample, eDraw, drawPass, List.map_cons, List.map_nil, List.mem_cons, List.not_mem_nil, or_false] at hp
    rcases hp with rfl | rfl <;>
      (simp only [List.mem_cons, List.not_mem_nil, or_false] at ha; subst ha; exact ⟨rfl, by decide⟩)
  refine ⟨⟨?_, ?_, ?_, ?_⟩, ?_, ?_, ?_, ?_, ?_⟩
  · rintro v rfl; rfl
  · rintro v rfl; decide
  · rintro v rfl; decide
  · rintro v w rfl rfl; exact Or.inr ⟨rfl, fun _ _ => Iff.rfl⟩
  · rintro u v rfl rfl _; rfl
  · rintro x ⟨p, hp, a, ha, hx⟩
    rw [(himg p hp a ha).1, List.mem_singleton] at hx
    subst hx
    exact ⟨rfl, by decide⟩
  · intro p hp a ha _
    exact (himg p hp a ha).2
  · intro p hp index
    simp only [sDecls, eSample, eDraw, drawPass, List.map_cons, List.map_nil, List.mem_cons, List.not_mem_nil, or_false] at hp
    rcases hp with rfl | rfl <;> simp
  · intro p hp va hva
    simp only [sDecls, eSample, eDraw, drawPass, List.map_cons, List.map_nil, List.mem_cons, List.not_mem_nil, or_false] at hp
    rcases hp with rfl | rfl <;> simp at hva

theorem sDecls_work : ∀ d ∈ sDecls, WorkOk false xV (sDecls.map (·.pass)) d := by
  intro d hd
  simp only [sDecls, List.mem_cons, List.not_mem_nil, or_false] at hd
  rcases hd with rfl | rfl
  · intro index c hc
    simp at hc
  · intro a ha
    simp only [eDraw, drawPass, List.mem_cons, List.not_mem_nil, or_false] at ha
    subst ha
    refine ⟨by decide, fun v hv => ?_⟩
    have hv' : v ∈ [xView] := hv
    rw [List.mem_singleton] at hv'
    subst hv'
    exact ⟨xView.range, ⟨⟨rfl, rfl⟩, fun h => absurd h (by decide), fun _ => ⟨rfl, rfl⟩⟩, by decide⟩

/-- The commands of the first two recordings. -/
def sTwo : Option (List Cmd × List Cmd) :=
  (record ⟨false, fun _ => true⟩ xG [] (fun _ => 0) (runsAll false xG (fun _ _ => none) sDecls) (fun _ _ => false) []).bind fun x =>
    (record ⟨false, fun _ => true⟩ x.1 [] (fun _ => 0) (runsAll false x.1 (fun _ _ => none) sDecls) (fun _ _ => false) []).map fun y =>
      (x.2.recd.cmds, y.2.recd.cmds)

/-- The first recording may differ from the next ones: it takes the image from UNDEFINED, the next ones from the layout the
recording before left it in. -/
theorem first_may_differ : (sTwo.map fun x => decide (x.1 = x.2)) = some false := by decide

/-- The hypotheses of `settles_partial` are met, by as many recordings as wanted. -/
example (n : Nat) : ∃ out, Repeats ⟨false, fun _ => true⟩ [] (fun _ => 0) sDecls xG (fun _ _ => none) (fun _ _ => false) [] out
    ∧ out.length = n
    ∧ ∀ (i j : Nat) x y, 1 ≤ i → 1 ≤ j → out[i]? = some x → out[j]? = some y → x.1 = y.1 := by
  have h : ((record ⟨false, fun _ => true⟩ xG [] (fun _ => 0) (runsAll false xG (fun _ _ => none) sDecls) (fun _ _ => false) []).map
      fun x => x.2.recd.cmds.length) = some 4 := by decide
  obtain ⟨⟨G1, f1⟩, e, -⟩ := Option.map_eq_some_iff.1 h
  have hne : ∀ v, xV v → v.range.NonEmpty := by rintro v rfl; decide
  obtain ⟨out, h1, h2⟩ := repeats_exist sDecls_tidy hne (by decide) _ _ _ e n
  refine ⟨out, h1, h2, (settles_partial (G := xG) (deps := []) sDecls_tidy hne sDecls_work _ _ (fun v _ => Or.inl fun _ _ _ => rfl)
    (fun v _ => Or.inl fun _ _ _ => rfl) (fun v _ => Or.inl fun _ _ _ => rfl) ?_ h1).2⟩
  refine ⟨?_, ?_, trivial⟩
  · rintro _ ⟨_, _, _, h⟩
    simp at h
  · rintro _ ⟨_, _, _, h⟩
    simp at h

/-- An image is copied to another one, which gets its mipmaps and is sampled. -/
def mDecls : List Decl := [⟨Lib.eCopy, .imageCopy (fun _ => true) ⟨64, 64, 1⟩ Layout.undefined⟩,
  ⟨Lib.eMips, .mipmaps (fun _ => true) .d2 (makeLayoutState Layout.shaderReadOnly)⟩, ⟨Lib.eSample, .calls fun _ => []⟩]

theorem mDecls_work : ∀ d ∈ mDecls, WorkOk false Lib.eV (mDecls.map (·.pass)) d := by
  intro d hd
  simp only [mDecls, List.mem_cons, List.not_mem_nil, or_false] at hd
  rcases hd with rfl | rfl | rfl
  · exact trivial
  · refine ⟨by decide, ?_⟩
    intro a ha
    have : (ImageAdder.transferInOut 0).attach 2 0 [Lib.eDst] = a := by simpa [Lib.eMips, Lib.eMips0] using ha
    subst this
    refine ⟨by decide, fun v hv => ?_⟩
    have : v = Lib.eDst := by simpa [ImageAdder.attach, mkImage] using hv
    subst this
    decide
  · intro index c hc
    simp at hc

theorem mDecls_told : MipsTold ⟨false, fun _ => true⟩ xG (fun _ => 0) mDecls := by
  refine ⟨?_, ?_, ?_, trivial⟩
  · rintro _ ⟨_, _, _, h⟩
    simp at h
  · intro _ _ a ha v hv
    have : (ImageAdder.transferInOut 0).attach 2 0 [Lib.eDst] = a := by simpa [Lib.eMips, Lib.eMips0] using ha
    subst this
    have : Lib.eDst = v := Option.some.inj hv
    subst this
    decide
  · rintro _ ⟨_, _, _, h⟩
    simp at h

/-- The hypotheses of `settles_partial` are met by a graph that makes mipmaps. -/
example (n : Nat) : ∃ out, Repeats ⟨false, fun _ => true⟩ [] (fun _ => 0) mDecls xG (fun _ _ => none) (fun _ _ => false) [] out
    ∧ out.length = n
    ∧ ∀ (i j : Nat) x y, 1 ≤ i → 1 ≤ j → out[i]? = some x → out[j]? = some y → x.1 = y.1 := by
  have h : ((record ⟨false, fun _ => true⟩ xG [] (fun _ => 0) (runsAll false xG (fun _ _ => none) mDecls) (fun _ _ => false) []).map
      fun x => x.2.recd.cmds.length) = some 10 := by decide +kernel
  obtain ⟨⟨G1, f1⟩, e, -⟩ := Option.map_eq_some_iff.1 h
  have hne : ∀ v, Lib.eV v → v.range.NonEmpty := by rintro v (rfl | rfl) <;> decide
  have hT : TidyViews false (fun _ => 37) Lib.eV (mDecls.map (·.pass)) := Lib.example_views
  obtain ⟨out, h1, h2⟩ := repeats_exist hT hne (by decide) _ _ _ e n
  exact ⟨out, h1, h2, (settles_partial (G := xG) (deps := []) hT hne mDecls_work _ _ (fun v _ => Or.inl fun _ _ _ => rfl)
    (fun v _ => Or.inl fun _ _ _ => rfl) (fun v _ => Or.inl fun _ _ _ => rfl) mDecls_told h1).2⟩

end Verif.Settle
