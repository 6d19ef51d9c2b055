import Verif.Spec.Resources
import Verif.Lemmas.Util
/-
Invariants of the resource handler.
-/
namespace Verif.Res

/-! ### Ids -/

structure IdInv (s : Ids) : Prop where
  imgKeys : s.images.map (·.1) = List.range' 1 s.images.length
  viewKeys : s.views.map (·.1) = List.range' 1 s.views.length
  descs : (s.views.map (fun e => e.2.desc)).Nodup

theorem tryEmplace_fresh {A : Type} {m : List (Nat × A)} (h : m.map (·.1) = List.range' 1 m.length) (a : A) :
    tryEmplace m (m.length + 1) a = m ++ [(m.length + 1, a)] := by
  unfold tryEmplace
  have hno : m.any (fun e => e.1 == m.length + 1) = false := by
    rw [List.any_eq_false]
    intro e he hc
    have h1 : e.1 ∈ m.map (·.1) := List.mem_map_of_mem he
    rw [h, List.mem_range'_1] at h1
    have : e.1 = m.length + 1 := by simpa using hc
    omega
  simp [hno]

theorem keys_snoc {A : Type} {m : List (Nat × A)} (h : m.map (·.1) = List.range' 1 m.length) (a : A) :
    (m ++ [(m.length + 1, a)]).map (·.1) = List.range' 1 (m ++ [(m.length + 1, a)]).length := by
  simp only [List.map_append, List.length_append, List.map_cons, List.map_nil, List.length_cons, List.length_nil]
  rw [h, List.range'_concat]
  simp; omega

theorem createImageId_eq {s : Ids} (hI : IdInv s) (hb : s.images.length + 1 < 2 ^ 32) (d : Nat) :
    createImageId s d = (s.images.length + 1, { s with images := s.images ++ [(s.images.length + 1, d)] }) := by
  simp only [createImageId, Nat.mod_eq_of_lt hb, tryEmplace_fresh hI.imgKeys]

theorem createViewId_cases {s : Ids} (hI : IdInv s) (hb : s.views.length + 1 < 2 ^ 32) (v : ViewData) :
    (∃ e ∈ s.views, e.2.desc = v.desc ∧ createViewId s v = (e.1, s)) ∨
    ((∀ e ∈ s.views, e.2.desc ≠ v.desc) ∧
      createViewId s v = (s.views.length + 1, { s with views := s.views ++ [(s.views.length + 1, v)] })) := by
  unfold createViewId
  cases hf : s.views.find? (fun e => e.2.desc == v.desc) with
  | some e =>
    left
    exact ⟨e, List.mem_of_find?_eq_some hf, by simpa using List.find?_some hf, rfl⟩
  | none =>
    right
    refine ⟨fun e he hc => ?_, ?_⟩
    · have := List.find?_eq_none.mp hf e he
      simp [hc] at this
    · simp only [Nat.mod_eq_of_lt hb, tryEmplace_fresh hI.viewKeys]

theorem idStep_inv {s : Ids} (hI : IdInv s) (op : IdOp) (hbi : s.images.length + 1 < 2 ^ 32)
    (hbv : s.views.length + 1 < 2 ^ 32) :
    IdInv (idStep s op).2 ∧ (idStep s op).2.images.length ≤ s.images.length + 1
      ∧ (idStep s op).2.views.length ≤ s.views.length + 1
      ∧ (∀ e ∈ s.images, e ∈ (idStep s op).2.images) ∧ (∀ e ∈ s.views, e ∈ (idStep s op).2.views)
      ∧ s.images.length ≤ (idStep s op).2.images.length := by
  cases op with
  | image d =>
    simp only [idStep, createImageId_eq hI hbi]
    refine ⟨⟨keys_snoc hI.imgKeys d, hI.viewKeys, hI.descs⟩, by simp, by simp, ?_, fun e he => he, by simp⟩
    intro e he
    exact List.mem_append_left _ he
  | view v =>
    simp only [idStep]
    rcases createViewId_cases hI hbv v with ⟨e, _, _, h⟩ | ⟨hne, h⟩
    · rw [h]; exact ⟨hI, by simp, by simp, fun e he => he, fun e he => he, Nat.le_refl _⟩
    · rw [h]
      refine ⟨⟨hI.imgKeys, keys_snoc hI.viewKeys v, ?_⟩, by simp, by simp, fun e he => he, ?_, Nat.le_refl _⟩
      · simp only [List.map_append, List.map_cons, List.map_nil]
        rw [List.nodup_append]
        refine ⟨hI.descs, by simp, ?_⟩
        intro a ha b hb
        simp only [List.mem_singleton] at hb
        obtain ⟨e, he, rfl⟩ := List.mem_map.mp ha
        subst hb
        exact hne e he
      · intro e he
        exact List.mem_append_left _ he

theorem idRun_inv : ∀ (ops : List IdOp) (s : Ids), IdInv s → s.images.length + ops.length < 2 ^ 32 →
    s.views.length + ops.length < 2 ^ 32 →
    IdInv (idRun s ops).2 ∧ (∀ e ∈ s.images, e ∈ (idRun s ops).2.images) ∧ (∀ e ∈ s.views, e ∈ (idRun s ops).2.views) := by
  intro ops
  induction ops with
  | nil => intro s hI _ _; exact ⟨hI, fun e he => he, fun e he => he⟩
  | cons op ops ih =>
    intro s hI h1 h2
    simp only [List.length_cons] at h1 h2
    obtain ⟨hI', l1, l2, p1, p2, _⟩ := idStep_inv hI op (by omega) (by omega)
    obtain ⟨hF, q1, q2⟩ := ih _ hI' (by omega) (by omega)
    exact ⟨hF, fun e he => q1 e (p1 e he), fun e he => q2 e (p2 e he)⟩

theorem idRun_image : ∀ (ops : List IdOp) (s : Ids), IdInv s → s.images.length + ops.length < 2 ^ 32 →
    s.views.length + ops.length < 2 ^ 32 → ∀ (a d : Nat), ops[a]? = some (.image d) →
    ∃ id, (idRun s ops).1[a]? = some id ∧ s.images.length < id ∧ (id, d) ∈ (idRun s ops).2.images := by
  intro ops
  induction ops with
  | nil => intro s _ _ _ a d h; simp at h
  | cons op ops ih =>
    intro s hI h1 h2 a d h
    simp only [List.length_cons] at h1 h2
    obtain ⟨hI', l1, l2, p1, p2, l3⟩ := idStep_inv hI op (by omega) (by omega)
    cases a with
    | zero =>
      simp only [List.getElem?_cons_zero, Option.some.injEq] at h
      subst h
      have e := createImageId_eq hI (by omega) d
      refine ⟨s.images.length + 1, ?_, by omega, ?_⟩
      · simp [idRun, idStep, e]
      · simp only [idRun]
        refine (idRun_inv ops _ hI' (by omega) (by omega)).2.1 _ ?_
        simp [idStep, e]
    | succ a =>
      simp only [List.getElem?_cons_succ] at h
      obtain ⟨id, g1, g2, g3⟩ := ih _ hI' (by omega) (by omega) a d h
      exact ⟨id, by simpa [idRun] using g1, by omega, g3⟩

theorem idRun_fresh : ∀ (ops : List IdOp) (s : Ids), IdInv s → s.images.length + ops.length < 2 ^ 32 →
    s.views.length + ops.length < 2 ^ 32 → ∀ (a b d e : Nat), a < b → ops[a]? = some (.image d) → ops[b]? = some (.image e) →
    (idRun s ops).1[a]? ≠ (idRun s ops).1[b]? := by
  intro ops
  induction ops with
  | nil => intro s _ _ _ a b d e _ h; simp at h
  | cons op ops ih =>
    intro s hI h1 h2 a b d e hab ha hb
    simp only [List.length_cons] at h1 h2
    obtain ⟨hI', l1, l2, p1, p2, l3⟩ := idStep_inv hI op (by omega) (by omega)
    obtain ⟨b, rfl⟩ : ∃ c, b = c + 1 := ⟨b - 1, by omega⟩
    simp only [List.getElem?_cons_succ] at hb
    cases a with
    | zero =>
      simp only [List.getElem?_cons_zero, Option.some.injEq] at ha
      subst ha
      have he := createImageId_eq hI (by omega) d
      obtain ⟨id, g1, g2, _⟩ := idRun_image ops _ hI' (by omega) (by omega) b e hb
      simp only [idRun, List.getElem?_cons_zero, List.getElem?_cons_succ, g1]
      intro hc
      simp only [idStep, he, List.length_append, List.length_cons, List.length_nil, Option.some.injEq] at g2 hc
      omega
    | succ a =>
      simp only [List.getElem?_cons_succ] at ha
      simpa [idRun] using ih _ hI' (by omega) (by omega) a b d e (by omega) ha hb

theorem idRun_view : ∀ (ops : List IdOp) (s : Ids), IdInv s → s.images.length + ops.length < 2 ^ 32 →
    s.views.length + ops.length < 2 ^ 32 → ∀ (a : Nat) (v : ViewData), ops[a]? = some (.view v) →
    ∃ e ∈ (idRun s ops).2.views, (idRun s ops).1[a]? = some e.1 ∧ e.2.desc = v.desc := by
  intro ops
  induction ops with
  | nil => intro s _ _ _ a v h; simp at h
  | cons op ops ih =>
    intro s hI h1 h2 a v h
    simp only [List.length_cons] at h1 h2
    obtain ⟨hI', l1, l2, p1, p2, l3⟩ := idStep_inv hI op (by omega) (by omega)
    have hk := idRun_inv ops _ hI' (by omega) (by omega)
    cases a with
    | zero =>
      simp only [List.getElem?_cons_zero, Option.some.injEq] at h
      subst h
      rcases createViewId_cases hI (by omega) v with ⟨e, he, hd, h⟩ | ⟨hne, h⟩
      · refine ⟨e, hk.2.2 _ (p2 _ he), ?_, hd⟩
        simp [idRun, idStep, h]
      · refine ⟨(s.views.length + 1, v), hk.2.2 _ ?_, ?_, rfl⟩
        · simp [idStep, h]
        · simp [idRun, idStep, h]
    | succ a =>
      simp only [List.getElem?_cons_succ] at h
      obtain ⟨e, g1, g2, g3⟩ := ih _ hI' (by omega) (by omega) a v h
      exact ⟨e, g1, by simpa [idRun] using g2, g3⟩

theorem range'_nodup' (a n : Nat) : (List.range' a n).Nodup := List.nodup_range'

theorem eq_of_nodup_map {A B : Type} {f : A → B} : ∀ {l : List A}, (l.map f).Nodup → ∀ {a b : A}, a ∈ l → b ∈ l → f a = f b → a = b := by
  intro l
  induction l with
  | nil => intro _ a b h; simp at h
  | cons c l ih =>
    intro hn a b ha hb hf
    simp only [List.map_cons, List.nodup_cons] at hn
    rcases List.mem_cons.mp ha with rfl | ha' <;> rcases List.mem_cons.mp hb with rfl | hb'
    · rfl
    · exact absurd (hf ▸ List.mem_map_of_mem hb') hn.1
    · exact absurd (hf ▸ List.mem_map_of_mem ha') hn.1
    · exact ih hn.2 ha' hb' hf

/-! ### Handles -/

/-- The handles of a log's creations. -/
def createdIn (es : List Event) : List Nat := es.filterMap fun e => match e with | .create _ h => some h | .destroy _ _ => none

theorem Lawful.snoc_create {old live es live'} (hl : Lawful old live es live') (ctx h : Nat) (ho : h ∉ old)
    (hc : h ∉ createdIn es) : Lawful old live (es ++ [.create ctx h]) (h :: live') := by
  induction hl with
  | nil old live => exact .create ctx h ho (.nil _ _)
  | @create _ _ _ es c k hn _ ih =>
    have hk : h ≠ k ∧ h ∉ createdIn es := by
      refine ⟨?_, ?_⟩
      · intro e; apply hc; subst e; simp [createdIn]
      · intro e; apply hc; simp only [createdIn, List.filterMap_cons, List.mem_cons]; exact Or.inr e
    exact .create c k hn (ih (by simp [hk.1, ho]) hk.2)
  | destroy c k hm _ ih =>
    exact .destroy c k hm (ih ho (by simpa [createdIn] using hc))

theorem Lawful.snoc_destroy {old live es live'} (hl : Lawful old live es live') (ctx h : Nat) (hm : h ∈ live') :
    Lawful old live (es ++ [.destroy ctx h]) (live'.filter (· != h)) := by
  induction hl with
  | nil old live => exact .destroy ctx h hm (.nil _ _)
  | create c k hn _ ih => exact .create c k hn (ih hm)
  | destroy c k hk _ ih => exact .destroy c k hk (ih hm)

def handles (s : Handler) : List Nat := s.images.map (·.2) ++ s.views.map (·.2)

structure HInv (s : Handler) : Prop where
  imgKeys : (s.images.map (·.1)).Nodup
  viewKeys : (s.views.map (·.1)).Nodup
  nodup : (handles s).Nodup
  small : ∀ h ∈ handles s, h < s.next
  created : ∀ h ∈ createdIn s.log, h < s.next
  lawful : ∃ live, Lawful [] [] s.log live ∧ ∀ h, h ∈ live ↔ h ∈ handles s

theorem find_some_mem {m : List (Nat × Nat)} {k h : Nat} (hf : find m k = some h) : (k, h) ∈ m := by
  unfold find at hf
  cases he : m.find? (fun e => e.1 == k) with
  | none => simp [he] at hf
  | some e =>
    have h1 := List.mem_of_find?_eq_some he
    have h2 := List.find?_some he
    simp only [he, Option.map_some, Option.some.injEq] at hf
    have : e = (k, h) := by
      cases e; simp only [beq_iff_eq] at h2; simp only at hf; rw [h2, hf]
    exact this ▸ h1

theorem find_none {m : List (Nat × Nat)} {k : Nat} : find m k = none ↔ k ∉ m.map (·.1) := by
  unfold find
  simp only [Option.map_eq_none_iff, List.find?_eq_none, List.mem_map, not_exists, not_and, beq_iff_eq]

theorem mem_erase' {m : List (Nat × Nat)} {k : Nat} {e : Nat × Nat} : e ∈ erase m k ↔ e ∈ m ∧ e.1 ≠ k := by
  simp [erase]

theorem find_eq_of_mem {m : List (Nat × Nat)} (hn : (m.map (·.1)).Nodup) {k h : Nat} (hm : (k, h) ∈ m) : find m k = some h := by
  cases hf : find m k with
  | none => exact absurd (List.mem_map_of_mem hm) (find_none.mp hf)
  | some h' =>
    have := eq_of_nodup_map hn (find_some_mem hf) hm rfl
    simp only [Prod.mk.injEq, true_and] at this
    rw [this]

theorem createdIn_append (a b : List Event) : createdIn (a ++ b) = createdIn a ++ createdIn b := by
  simp [createdIn]

theorem createImage_inv {s : Handler} (hI : HInv s) (c i : Nat) : HInv (s.createImage c i).2 := by
  unfold Handler.createImage
  split
  · exact hI
  · rename_i hf
    obtain ⟨live, hl, hlive⟩ := hI.lawful
    have hfresh : s.next ∉ handles s := fun h => Nat.lt_irrefl _ (hI.small _ h)
    refine ⟨?_, hI.viewKeys, ?_, ?_, ?_, ?_⟩
    · simp only [List.map_append, List.map_cons, List.map_nil]
      rw [List.nodup_append]
      refine ⟨hI.imgKeys, by simp, ?_⟩
      intro a ha b hb
      simp only [List.mem_singleton] at hb
      subst hb
      intro he; subst he
      exact find_none.mp hf ha
    · have hn := hI.nodup
      simp only [handles, List.map_append, List.map_cons, List.map_nil] at hn hfresh ⊢
      rw [List.append_assoc, List.nodup_append] at *
      simp only [List.mem_append, not_or] at hfresh
      refine ⟨hn.1, ?_, ?_⟩
      · simp only [List.cons_append, List.nil_append, List.nodup_cons]
        exact ⟨hfresh.2, hn.2.1⟩
      · intro a ha b hb
        simp only [List.cons_append, List.nil_append, List.mem_cons] at hb
        rcases hb with rfl | hb
        · intro e; subst e; exact hfresh.1 ha
        · exact hn.2.2 a ha b hb
    · intro h hh
      simp only [handles, List.map_append, List.map_cons, List.map_nil, List.mem_append, List.mem_singleton] at hh
      have hs := hI.small h
      simp only [handles, List.mem_append] at hs
      show h < s.next + 1
      rcases hh with (h1 | h1) | h1
      · have := hs (Or.inl h1); omega
      · omega
      · have := hs (Or.inr h1); omega
    · intro h hh
      rw [createdIn_append, List.mem_append] at hh
      show h < s.next + 1
      rcases hh with h1 | h1
      · have := hI.created h h1; omega
      · simp [createdIn] at h1; omega
    · refine ⟨s.next :: live, hl.snoc_create c s.next (by simp) (fun h => Nat.lt_irrefl _ (hI.created _ h)), ?_⟩
      intro h
      have := hlive h
      simp only [handles, List.map_append, List.map_cons, List.map_nil, List.mem_append, List.mem_cons,
        List.not_mem_nil, or_false] at this ⊢
      rw [this]
      constructor
      · rintro (h1 | h1 | h1)
        · exact .inl (.inr h1)
        · exact .inl (.inl h1)
        · exact .inr h1
      · rintro ((h1 | h1) | h1)
        · exact .inr (.inl h1)
        · exact .inl h1
        · exact .inr (.inr h1)

theorem createView_inv {s : Handler} (hI : HInv s) (c v i : Nat) : HInv (s.createView c v i).2 := by
  unfold Handler.createView
  split
  · exact hI
  · rename_i hf
    have hI' := createImage_inv hI c i
    have hf' : find (s.createImage c i).2.views v = none := by
      have : (s.createImage c i).2.views = s.views := by unfold Handler.createImage; split <;> rfl
      rw [this]; exact hf
    generalize (s.createImage c i).2 = s' at hI' hf'
    obtain ⟨live, hl, hlive⟩ := hI'.lawful
    have hfresh : s'.next ∉ handles s' := fun h => Nat.lt_irrefl _ (hI'.small _ h)
    refine ⟨hI'.imgKeys, ?_, ?_, ?_, ?_, ?_⟩
    · simp only [List.map_append, List.map_cons, List.map_nil]
      rw [List.nodup_append]
      refine ⟨hI'.viewKeys, by simp, ?_⟩
      intro a ha b hb
      simp only [List.mem_singleton] at hb
      subst hb
      intro he; subst he
      exact find_none.mp hf' ha
    · have hn := hI'.nodup
      have e : handles { s' with views := s'.views ++ [(v, s'.next)], next := s'.next + 1, log := s'.log ++ [Event.create c s'.next] }
          = handles s' ++ [s'.next] := by simp [handles]
      rw [e, List.nodup_append]
      refine ⟨hn, by simp, ?_⟩
      intro a ha b hb
      simp only [List.mem_singleton] at hb
      subst hb
      intro he; subst he
      exact hfresh ha
    · intro h hh
      have e : handles { s' with views := s'.views ++ [(v, s'.next)], next := s'.next + 1, log := s'.log ++ [Event.create c s'.next] }
          = handles s' ++ [s'.next] := by simp [handles]
      rw [e, List.mem_append, List.mem_singleton] at hh
      show h < s'.next + 1
      rcases hh with h1 | h1
      · have := hI'.small h h1; omega
      · omega
    · intro h hh
      rw [createdIn_append, List.mem_append] at hh
      show h < s'.next + 1
      rcases hh with h1 | h1
      · have := hI'.created h h1; omega
      · simp [createdIn] at h1; omega
    · refine ⟨s'.next :: live, hl.snoc_create c s'.next (by simp) (fun h => Nat.lt_irrefl _ (hI'.created _ h)), ?_⟩
      intro h
      have e : handles { s' with views := s'.views ++ [(v, s'.next)], next := s'.next + 1, log := s'.log ++ [Event.create c s'.next] }
          = handles s' ++ [s'.next] := by simp [handles]
      rw [e, List.mem_append, List.mem_singleton, List.mem_cons, hlive h]
      exact Or.comm

theorem map_filter_nodup {A B : Type} {f : A → B} {p : A → Bool} {l : List A} (h : (l.map f).Nodup) : ((l.filter p).map f).Nodup :=
  h.sublist (List.filter_sublist.map f)

theorem destroyImage_inv {s : Handler} (hI : HInv s) (c i : Nat) : HInv (s.destroyImage c i) := by
  unfold Handler.destroyImage
  split
  · rename_i k hf
    obtain ⟨live, hl, hlive⟩ := hI.lawful
    have hm := find_some_mem hf
    have hsub : List.Sublist (handles { s with images := erase s.images i, log := s.log ++ [Event.destroy c k] }) (handles s) := by
      simp only [handles]
      exact List.Sublist.append (List.filter_sublist.map _) (List.Sublist.refl _)
    refine ⟨map_filter_nodup hI.imgKeys, hI.viewKeys, hI.nodup.sublist hsub, fun h hh => hI.small h (hsub.subset hh), ?_, ?_⟩
    · intro h hh
      rw [createdIn_append, List.mem_append] at hh
      rcases hh with h1 | h1
      · exact hI.created h h1
      · simp [createdIn] at h1
    · refine ⟨_, hl.snoc_destroy c k ((hlive k).mpr ?_), ?_⟩
      · simp only [handles, List.mem_append]
        exact Or.inl (List.mem_map.mpr ⟨_, hm, rfl⟩)
      · intro h
        have hn := hI.nodup
        simp only [handles, List.nodup_append] at hn
        rw [List.mem_filter, hlive]
        simp only [handles, List.mem_append, bne_iff_ne, ne_eq]
        constructor
        · rintro ⟨h1 | h1, h2⟩
          · left
            obtain ⟨e, he, rfl⟩ := List.mem_map.mp h1
            refine List.mem_map.mpr ⟨e, mem_erase'.mpr ⟨he, ?_⟩, rfl⟩
            intro hk
            apply h2
            have := eq_of_nodup_map hI.imgKeys he hm hk
            rw [this]
          · exact Or.inr h1
        · rintro (h1 | h1)
          · obtain ⟨e, he, rfl⟩ := List.mem_map.mp h1
            obtain ⟨he1, he2⟩ := mem_erase'.mp he
            refine ⟨Or.inl (List.mem_map.mpr ⟨e, he1, rfl⟩), ?_⟩
            intro hk
            apply he2
            have := eq_of_nodup_map hn.1 he1 hm hk
            rw [this]
          · refine ⟨Or.inr h1, ?_⟩
            exact fun hk => hn.2.2 k (List.mem_map.mpr ⟨_, hm, rfl⟩) h h1 hk.symm
  · exact hI

theorem destroyView_inv {s : Handler} (hI : HInv s) (c i : Nat) : HInv (s.destroyView c i) := by
  unfold Handler.destroyView
  split
  · rename_i k hf
    obtain ⟨live, hl, hlive⟩ := hI.lawful
    have hm := find_some_mem hf
    have hsub : List.Sublist (handles { s with views := erase s.views i, log := s.log ++ [Event.destroy c k] }) (handles s) := by
      simp only [handles]
      exact List.Sublist.append (List.Sublist.refl _) (List.filter_sublist.map _)
    refine ⟨hI.imgKeys, map_filter_nodup hI.viewKeys, hI.nodup.sublist hsub, fun h hh => hI.small h (hsub.subset hh), ?_, ?_⟩
    · intro h hh
      rw [createdIn_append, List.mem_append] at hh
      rcases hh with h1 | h1
      · exact hI.created h h1
      · simp [createdIn] at h1
    · refine ⟨_, hl.snoc_destroy c k ((hlive k).mpr ?_), ?_⟩
      · simp only [handles, List.mem_append]
        exact Or.inr (List.mem_map.mpr ⟨_, hm, rfl⟩)
      · intro h
        have hn := hI.nodup
        simp only [handles, List.nodup_append] at hn
        rw [List.mem_filter, hlive]
        simp only [handles, List.mem_append, bne_iff_ne, ne_eq]
        constructor
        · rintro ⟨h1 | h1, h2⟩
          · exact Or.inl h1
          · right
            obtain ⟨e, he, rfl⟩ := List.mem_map.mp h1
            refine List.mem_map.mpr ⟨e, mem_erase'.mpr ⟨he, ?_⟩, rfl⟩
            intro hk
            apply h2
            have := eq_of_nodup_map hI.viewKeys he hm hk
            rw [this]
        · rintro (h1 | h1)
          · refine ⟨Or.inl h1, ?_⟩
            exact fun hk => hn.2.2 h h1 k (List.mem_map.mpr ⟨_, hm, rfl⟩) hk
          · obtain ⟨e, he, rfl⟩ := List.mem_map.mp h1
            obtain ⟨he1, he2⟩ := mem_erase'.mp he
            refine ⟨Or.inr (List.mem_map.mpr ⟨e, he1, rfl⟩), ?_⟩
            intro hk
            apply he2
            have := eq_of_nodup_map hn.2.1 he1 hm hk
            rw [this]
  · exact hI

theorem foldl_keep {A S : Type} {P : S → Prop} {f : S → A → S} (hf : ∀ s a, P s → P (f s a)) :
    ∀ (l : List A) (s : S), P s → P (l.foldl f s) := by
  intro l
  induction l with
  | nil => intro s h; exact h
  | cons a l ih => intro s h; exact ih _ (hf s a h)

theorem step_inv {s : State} (hI : HInv s.handler) (op : Op) : HInv (step s op).handler := by
  cases op with
  | createImage c i => exact createImage_inv hI c i
  | createView c v i => exact createView_inv hI c v i
  | destroyImage c i =>
    simp only [step]; split
    · exact destroyImage_inv hI c i
    · exact hI
  | destroyView c i =>
    simp only [step]; split
    · exact destroyView_inv hI c i
    · exact hI
  | close c =>
    simp only [step]
    exact foldl_keep (P := HInv) (fun h i hh => destroyImage_inv hh c i) _ _
      (foldl_keep (P := HInv) (fun h i hh => destroyView_inv hh c i) _ _ hI)

theorem init_inv : HInv {} := ⟨by simp, by simp, by simp [handles], by simp [handles], by simp [createdIn],
  ⟨[], .nil _ _, by simp [handles]⟩⟩

theorem run_inv (ops : List Op) : HInv (run {} ops).handler := by
  unfold run
  exact foldl_keep (P := fun s : State => HInv s.handler) (fun s op h => step_inv h op) ops {} init_inv

/-! ### What happens to one image -/

/-- `i` still has handle `h`, or `h` was destroyed. -/
def Keeps (i h : Nat) (s : Handler) : Prop := find s.images i = some h ∨ ∃ c, Event.destroy c h ∈ s.log

theorem keeps_createImage {i h : Nat} {s : Handler} (hk : Keeps i h s) (c j : Nat) : Keeps i h (s.createImage c j).2 := by
  unfold Handler.createImage
  split
  · exact hk
  · rcases hk with h1 | ⟨d, h1⟩
    · left
      have := h1
      unfold find at h1 ⊢
      simp only [List.find?_append]
      cases hq : s.images.find? (fun e => e.1 == i) with
      | none => simp [hq] at h1
      | some e => simpa [hq] using h1
    · exact Or.inr ⟨d, List.mem_append_left _ h1⟩

theorem keeps_createView {i h : Nat} {s : Handler} (hk : Keeps i h s) (c v j : Nat) : Keeps i h (s.createView c v j).2 := by
  unfold Handler.createView
  split
  · exact hk
  · rcases keeps_createImage hk c j with h1 | ⟨d, h1⟩
    · exact Or.inl h1
    · exact Or.inr ⟨d, List.mem_append_left _ h1⟩

theorem keeps_destroyView {i h : Nat} {s : Handler} (hk : Keeps i h s) (c v : Nat) : Keeps i h (s.destroyView c v) := by
  unfold Handler.destroyView
  split
  · rcases hk with h1 | ⟨d, h1⟩
    · exact Or.inl h1
    · exact Or.inr ⟨d, List.mem_append_left _ h1⟩
  · exact hk

theorem find_erase_ne {m : List (Nat × Nat)} {i j : Nat} (hij : i ≠ j) : find (erase m j) i = find m i := by
  unfold find erase
  congr 1
  induction m with
  | nil => rfl
  | cons e m ih =>
    by_cases h1 : e.1 = j
    · have h2 : (e.1 == i) = false := by simp [h1]; exact fun h => hij h.symm
      simp only [List.find?_cons, h2]
      rw [List.filter_cons_of_neg (by simp [h1])]
      exact ih
    · rw [List.filter_cons_of_pos (by simp [h1])]
      simp only [List.find?_cons]
      split
      · rfl
      · exact ih

theorem keeps_destroyImage {i h : Nat} {s : Handler} (hk : Keeps i h s) (c j : Nat) : Keeps i h (s.destroyImage c j) := by
  unfold Handler.destroyImage
  split
  · rename_i k hf
    rcases hk with h1 | ⟨d, h1⟩
    · by_cases hij : i = j
      · subst hij
        rw [h1] at hf
        simp only [Option.some.injEq] at hf
        subst hf
        exact Or.inr ⟨c, by simp⟩
      · exact Or.inl (by rw [← h1]; exact find_erase_ne hij)
    · exact Or.inr ⟨d, List.mem_append_left _ h1⟩
  · exact hk

theorem keeps_step {i h : Nat} {s : State} (hk : Keeps i h s.handler) (op : Op) : Keeps i h (step s op).handler := by
  cases op with
  | createImage c i => exact keeps_createImage hk c i
  | createView c v i => exact keeps_createView hk c v i
  | destroyImage c i =>
    simp only [step]; split
    · exact keeps_destroyImage hk c i
    · exact hk
  | destroyView c i =>
    simp only [step]; split
    · exact keeps_destroyView hk c i
    · exact hk
  | close c =>
    simp only [step]
    exact foldl_keep (P := Keeps i h) (fun h i hh => keeps_destroyImage hh c i) _ _
      (foldl_keep (P := Keeps i h) (fun h i hh => keeps_destroyView hh c i) _ _ hk)

theorem keeps_run {i h : Nat} {s : State} (hk : Keeps i h s.handler) (ops : List Op) : Keeps i h (run s ops).handler := by
  unfold run
  exact foldl_keep (P := fun s : State => Keeps i h s.handler) (fun s op hh => keeps_step hh op) ops s hk

/-! ### Every live object is in a cache -/

/-- The condition under which nothing leaks: a view is requested once its image exists. -/
def ImagesFirst : State → List Op → Prop
  | _, [] => True
  | s, op :: ops =>
    (match op with
     | .createView _ v i => find s.handler.views v = none → find s.handler.images i ≠ none
     | _ => True) ∧ ImagesFirst (step s op) ops

structure Owned (s : State) : Prop where
  images : ∀ i ∈ s.handler.images.map (·.1), ∃ c, i ∈ (s.caches c).images
  views : ∀ v ∈ s.handler.views.map (·.1), ∃ c, v ∈ (s.caches c).views

theorem mem_addKey {k x : Nat} {l : List Nat} : x ∈ addKey k l ↔ x = k ∨ x ∈ l := by
  unfold addKey
  split
  · constructor
    · exact Or.inr
    · rintro (rfl | h) <;> assumption
  · simp [or_comm]

theorem createImage_found {s : Handler} {c i : Nat} (h : find s.images i ≠ none) : (s.createImage c i).2 = s := by
  unfold Handler.createImage
  split
  · rfl
  · rename_i hn; exact absurd hn h

theorem destroyImage_keys {s : Handler} {c i : Nat} :
    (∀ k, k ∈ (s.destroyImage c i).images.map (·.1) ↔ k ∈ s.images.map (·.1) ∧ k ≠ i)
      ∧ (s.destroyImage c i).views = s.views := by
  unfold Handler.destroyImage
  split
  · refine ⟨fun k => ?_, rfl⟩
    simp only [List.mem_map, mem_erase']
    constructor
    · rintro ⟨e, ⟨h1, h2⟩, rfl⟩; exact ⟨⟨e, h1, rfl⟩, h2⟩
    · rintro ⟨⟨e, h1, rfl⟩, h2⟩; exact ⟨e, ⟨h1, h2⟩, rfl⟩
  · rename_i hf
    refine ⟨fun k => ?_, rfl⟩
    constructor
    · intro h; exact ⟨h, fun e => find_none.mp hf (e ▸ h)⟩
    · exact fun h => h.1

theorem destroyView_keys {s : Handler} {c i : Nat} :
    (∀ k, k ∈ (s.destroyView c i).views.map (·.1) ↔ k ∈ s.views.map (·.1) ∧ k ≠ i)
      ∧ (s.destroyView c i).images = s.images := by
  unfold Handler.destroyView
  split
  · refine ⟨fun k => ?_, rfl⟩
    simp only [List.mem_map, mem_erase']
    constructor
    · rintro ⟨e, ⟨h1, h2⟩, rfl⟩; exact ⟨⟨e, h1, rfl⟩, h2⟩
    · rintro ⟨⟨e, h1, rfl⟩, h2⟩; exact ⟨e, ⟨h1, h2⟩, rfl⟩
  · rename_i hf
    refine ⟨fun k => ?_, rfl⟩
    constructor
    · intro h; exact ⟨h, fun e => find_none.mp hf (e ▸ h)⟩
    · exact fun h => h.1

theorem foldl_destroyImage (c : Nat) : ∀ (l : List Nat) (s : Handler),
    (∀ k, k ∈ (l.foldl (fun h i => h.destroyImage c i) s).images.map (·.1) ↔ k ∈ s.images.map (·.1) ∧ k ∉ l)
      ∧ (l.foldl (fun h i => h.destroyImage c i) s).views = s.views := by
  intro l
  induction l with
  | nil => intro s; simp
  | cons i l ih =>
    intro s
    simp only [List.foldl_cons]
    refine ⟨fun k => ?_, ?_⟩
    · rw [(ih _).1, destroyImage_keys.1, List.mem_cons]
      constructor
      · rintro ⟨⟨h1, h2⟩, h3⟩; exact ⟨h1, fun h => h.elim h2 h3⟩
      · rintro ⟨h1, h2⟩; exact ⟨⟨h1, fun h => h2 (.inl h)⟩, fun h => h2 (.inr h)⟩
    · rw [(ih _).2, destroyImage_keys.2]

theorem foldl_destroyView (c : Nat) : ∀ (l : List Nat) (s : Handler),
    (∀ k, k ∈ (l.foldl (fun h i => h.destroyView c i) s).views.map (·.1) ↔ k ∈ s.views.map (·.1) ∧ k ∉ l)
      ∧ (l.foldl (fun h i => h.destroyView c i) s).images = s.images := by
  intro l
  induction l with
  | nil => intro s; simp
  | cons i l ih =>
    intro s
    simp only [List.foldl_cons]
    refine ⟨fun k => ?_, ?_⟩
    · rw [(ih _).1, destroyView_keys.1, List.mem_cons]
      constructor
      · rintro ⟨⟨h1, h2⟩, h3⟩; exact ⟨h1, fun h => h.elim h2 h3⟩
      · rintro ⟨h1, h2⟩; exact ⟨⟨h1, fun h => h2 (.inl h)⟩, fun h => h2 (.inr h)⟩
    · rw [(ih _).2, destroyView_keys.2]

theorem close_keys (s : State) (c : Nat) :
    (∀ k, k ∈ (step s (.close c)).handler.images.map (·.1) ↔ k ∈ s.handler.images.map (·.1) ∧ k ∉ (s.caches c).images)
      ∧ (∀ k, k ∈ (step s (.close c)).handler.views.map (·.1) ↔ k ∈ s.handler.views.map (·.1) ∧ k ∉ (s.caches c).views) := by
  simp only [step]
  refine ⟨fun k => ?_, fun k => ?_⟩
  · rw [(foldl_destroyImage c _ _).1, (foldl_destroyView c _ _).2]
  · rw [(foldl_destroyImage c _ _).2, (foldl_destroyView c _ _).1]

theorem setCache_self (f : Nat → Cache) (c : Nat) (x : Cache) : setCache f c x c = x := by simp [setCache]
theorem setCache_ne (f : Nat → Cache) {c d : Nat} (h : d ≠ c) (x : Cache) : setCache f c x d = f d := by simp [setCache, h]

theorem owned_step {s : State} (ho : Owned s) (op : Op)
    (hv : ∀ c v i, op = .createView c v i → find s.handler.views v = none → find s.handler.images i ≠ none) :
    Owned (step s op) := by
  cases op with
  | createImage c i =>
    cases hfi : find s.handler.images i with
    | some h => simpa [step, Handler.createImage, hfi] using ho
    | none =>
      simp only [step, Handler.createImage, hfi, if_true]
      refine ⟨?_, ?_⟩
      · intro k hk
        simp only [List.map_append, List.map_cons, List.map_nil, List.mem_append, List.mem_singleton] at hk
        rcases hk with hk | rfl
        · obtain ⟨d, hd⟩ := ho.images k hk
          refine ⟨d, ?_⟩
          by_cases h : d = c
          · subst h; simp only [setCache_self]; exact mem_addKey.mpr (Or.inr hd)
          · simp only [setCache_ne _ h]; exact hd
        · exact ⟨c, by simp only [setCache_self]; exact mem_addKey.mpr (Or.inl rfl)⟩
      · intro k hk
        obtain ⟨d, hd⟩ := ho.views k hk
        refine ⟨d, ?_⟩
        by_cases h : d = c
        · subst h; simp only [setCache_self]; exact hd
        · simp only [setCache_ne _ h]; exact hd
  | createView c v i =>
    cases hf : find s.handler.views v with
    | some h => simpa [step, Handler.createView, hf] using ho
    | none =>
      simp only [step, Handler.createView, hf, createImage_found (hv c v i rfl hf), if_true]
      refine ⟨?_, ?_⟩
      · intro k hk
        obtain ⟨d, hd⟩ := ho.images k hk
        refine ⟨d, ?_⟩
        by_cases h : d = c
        · subst h; simp only [setCache_self]; exact hd
        · simp only [setCache_ne _ h]; exact hd
      · intro k hk
        simp only [List.map_append, List.map_cons, List.map_nil, List.mem_append, List.mem_singleton] at hk
        rcases hk with hk | rfl
        · obtain ⟨d, hd⟩ := ho.views k hk
          refine ⟨d, ?_⟩
          by_cases h : d = c
          · subst h; simp only [setCache_self]; exact mem_addKey.mpr (Or.inr hd)
          · simp only [setCache_ne _ h]; exact hd
        · exact ⟨c, by simp only [setCache_self]; exact mem_addKey.mpr (Or.inl rfl)⟩
  | destroyImage c i =>
    simp only [step]
    split
    · refine ⟨fun k hk => ho.images k (destroyImage_keys.1 k |>.mp hk).1, fun k hk => ho.views k ?_⟩
      simpa only [destroyImage_keys.2] using hk
    · exact ho
  | destroyView c i =>
    simp only [step]
    split
    · refine ⟨fun k hk => ho.images k ?_, fun k hk => ho.views k (destroyView_keys.1 k |>.mp hk).1⟩
      simpa only [destroyView_keys.2] using hk
    · exact ho
  | close c =>
    refine ⟨fun k hk => ?_, fun k hk => ?_⟩
    · obtain ⟨h1, h2⟩ := ((close_keys s c).1 k).mp hk
      obtain ⟨d, hd⟩ := ho.images k h1
      refine ⟨d, ?_⟩
      have h : d ≠ c := fun e => h2 (e ▸ hd)
      simp only [step]
      simp only [setCache_ne _ h]; exact hd
    · obtain ⟨h1, h2⟩ := ((close_keys s c).2 k).mp hk
      obtain ⟨d, hd⟩ := ho.views k h1
      refine ⟨d, ?_⟩
      have h : d ≠ c := fun e => h2 (e ▸ hd)
      simp only [step]
      simp only [setCache_ne _ h]; exact hd

theorem owned_run : ∀ (ops : List Op) (s : State), Owned s → ImagesFirst s ops → Owned (run s ops) := by
  intro ops
  induction ops with
  | nil => intro s h _; exact h
  | cons op ops ih =>
    intro s h hf
    refine ih (step s op) (owned_step h op ?_) hf.2
    intro c v i he hn
    subst he
    exact hf.1 hn

/-- The context of a call. -/
def Op.ctx : Op → Nat
  | .createImage c _ | .createView c _ _ | .destroyImage c _ | .destroyView c _ | .close c => c

theorem step_caches (s : State) (op : Op) (d : Nat) (h : d ≠ op.ctx) : (step s op).caches d = s.caches d := by
  cases op <;> simp only [step, Op.ctx] at * <;> (try split) <;> simp [setCache, h]

theorem run_caches : ∀ (ops : List Op) (s : State) (d : Nat), (∀ op ∈ ops, d ≠ op.ctx) → (run s ops).caches d = s.caches d := by
  intro ops
  induction ops with
  | nil => intro s d _; rfl
  | cons op ops ih =>
    intro s d h
    show (run (step s op) ops).caches d = _
    rw [ih _ _ (fun o ho => h o (List.mem_cons_of_mem _ ho)), step_caches _ _ _ (h op List.mem_cons_self)]

theorem run_closes : ∀ (cs : List Nat) (s : State) (d : Nat),
    ((run s (cs.map Op.close)).caches d = if d ∈ cs then {} else s.caches d) := by
  intro cs
  induction cs with
  | nil => intro s d; simp [run]
  | cons c cs ih =>
    intro s d
    show (run (step s (.close c)) (cs.map Op.close)).caches d = _
    rw [ih]
    by_cases h1 : d ∈ cs
    · simp [h1]
    · by_cases h2 : d = c
      · subst h2; simp [step, setCache]
      · simp [step, setCache, h1, h2]

/-! ### Caches keyed by hash -/

structure KInv {A : Type} (hash : A → Nat) (s : Keyed A) : Prop where
  keys : ∀ e ∈ s.entries, e.1 = hash e.2.2
  keysNodup : (s.entries.map (·.1)).Nodup
  small : ∀ e ∈ s.entries, e.2.1 < s.next
  nodup : (s.entries.map (·.2.1)).Nodup

theorem kget_cases {A : Type} {hash : A → Nat} {s : Keyed A} (a : A) :
    (∃ e ∈ s.entries, e.1 = hash a ∧ s.get hash a = (e.2.1, s)) ∨
    ((∀ e ∈ s.entries, e.1 ≠ hash a) ∧
      s.get hash a = (s.next, { entries := s.entries ++ [(hash a, s.next, a)], next := s.next + 1 })) := by
  unfold Keyed.get
  cases hf : s.entries.find? (fun e => e.1 == hash a) with
  | some e => exact Or.inl ⟨e, List.mem_of_find?_eq_some hf, by simpa using List.find?_some hf, rfl⟩
  | none =>
    refine Or.inr ⟨fun e he hc => ?_, rfl⟩
    have := List.find?_eq_none.mp hf e he
    simp [hc] at this

theorem kget_inv {A : Type} {hash : A → Nat} {s : Keyed A} (hI : KInv hash s) (a : A) :
    KInv hash (s.get hash a).2 ∧ (∀ e ∈ s.entries, e ∈ (s.get hash a).2.entries)
      ∧ ∃ e ∈ (s.get hash a).2.entries, e.2.1 = (s.get hash a).1 ∧ e.1 = hash a := by
  rcases kget_cases (hash := hash) (s := s) a with ⟨e, he, h1, h⟩ | ⟨hn, h⟩
  · rw [h]; exact ⟨hI, fun e he => he, e, he, rfl, h1⟩
  · rw [h]
    refine ⟨⟨?_, ?_, ?_, ?_⟩, fun e he => List.mem_append_left _ he, _, List.mem_append_right _ (List.mem_singleton.mpr rfl), rfl, rfl⟩
    · intro e he
      rcases List.mem_append.mp he with he | he
      · exact hI.keys e he
      · simp at he; subst he; rfl
    · simp only [List.map_append, List.map_cons, List.map_nil]
      rw [List.nodup_append]
      refine ⟨hI.keysNodup, by simp, ?_⟩
      intro x hx y hy
      simp only [List.mem_singleton] at hy
      obtain ⟨e, he, rfl⟩ := List.mem_map.mp hx
      subst hy
      exact hn e he
    · intro e he
      rcases List.mem_append.mp he with he | he
      · have := hI.small e he
        show e.2.1 < s.next + 1
        omega
      · simp at he; subst he; exact Nat.lt_succ_self _
    · simp only [List.map_append, List.map_cons, List.map_nil]
      rw [List.nodup_append]
      refine ⟨hI.nodup, by simp, ?_⟩
      intro x hx y hy
      simp only [List.mem_singleton] at hy
      obtain ⟨e, he, rfl⟩ := List.mem_map.mp hx
      subst hy
      have := hI.small e he
      omega

theorem krun_inv {A : Type} {hash : A → Nat} : ∀ (as : List A) (s : Keyed A), KInv hash s →
    KInv hash (Keyed.run hash s as).2 ∧ (∀ e ∈ s.entries, e ∈ (Keyed.run hash s as).2.entries) := by
  intro as
  induction as with
  | nil => intro s h; exact ⟨h, fun e he => he⟩
  | cons a as ih =>
    intro s h
    obtain ⟨h1, h2, _⟩ := kget_inv h a
    obtain ⟨h3, h4⟩ := ih _ h1
    exact ⟨h3, fun e he => h4 e (h2 e he)⟩

theorem krun_entry {A : Type} {hash : A → Nat} : ∀ (as : List A) (s : Keyed A), KInv hash s → ∀ (n : Nat) (a : A), as[n]? = some a →
    ∃ e ∈ (Keyed.run hash s as).2.entries, (Keyed.run hash s as).1[n]? = some e.2.1 ∧ e.1 = hash a := by
  intro as
  induction as with
  | nil => intro s _ n a h; simp at h
  | cons b as ih =>
    intro s h n a hn
    obtain ⟨h1, h2, e, he, h3, h4⟩ := kget_inv h b
    obtain ⟨h5, h6⟩ := krun_inv as _ h1
    cases n with
    | zero =>
      simp only [List.getElem?_cons_zero, Option.some.injEq] at hn
      subst hn
      exact ⟨e, h6 e he, by simp [Keyed.run, h3], h4⟩
    | succ n =>
      simp only [List.getElem?_cons_succ] at hn
      obtain ⟨e, g1, g2, g3⟩ := ih _ h1 n a hn
      exact ⟨e, g1, by simpa [Keyed.run] using g2, g3⟩

theorem krun_back {A : Type} {hash : A → Nat} : ∀ (as : List A) (s : Keyed A), ∀ e ∈ (Keyed.run hash s as).2.entries,
    e ∈ s.entries ∨ e.2.1 ∈ (Keyed.run hash s as).1 := by
  intro as
  induction as with
  | nil => intro s e he; exact Or.inl he
  | cons b as ih =>
    intro s e he
    rcases ih _ e he with h | h
    · rcases kget_cases (hash := hash) (s := s) b with ⟨e', he', h1, h2⟩ | ⟨hn, h2⟩
      · rw [h2] at h; exact Or.inl h
      · rw [h2] at h
        rcases List.mem_append.mp h with h | h
        · exact Or.inl h
        · simp at h; subst h
          right
          simp [Keyed.run, h2]
    · right
      exact List.mem_cons_of_mem _ h

theorem kinit {A : Type} (hash : A → Nat) : KInv hash ({} : Keyed A) :=
  ⟨by simp, by simp, by simp, by simp⟩

theorem krun_same_iff {A : Type} {hash : A → Nat} (as : List A) (m n : Nat) (a b : A) (ha : as[m]? = some a) (hb : as[n]? = some b) :
    (Keyed.run hash {} as).1[m]? = (Keyed.run hash {} as).1[n]? ↔ hash a = hash b := by
  obtain ⟨hI, _⟩ := krun_inv as _ (kinit hash)
  obtain ⟨e, he, h1, h2⟩ := krun_entry as _ (kinit hash) m a ha
  obtain ⟨f, hf, g1, g2⟩ := krun_entry as _ (kinit hash) n b hb
  rw [h1, g1]
  simp only [Option.some.injEq]
  constructor
  · intro h
    have : e = f := eq_of_nodup_map (f := fun e => e.2.1) hI.nodup he hf h
    rw [← h2, ← g2, this]
  · intro h
    have : e = f := eq_of_nodup_map (f := fun e => e.1) hI.keysNodup he hf (by rw [h2, g2, h])
    rw [this]

end Verif.Res
