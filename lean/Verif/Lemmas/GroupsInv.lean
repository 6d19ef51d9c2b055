import Verif.Lemmas.Groups
import Verif.Spec.Groups
/- The invariant of the group tree over histories of API calls. -/
namespace Verif.Groups

/-- Invariant of every reachable graph. -/
structure Inv (root : Group) : Prop where
  ids : ((listPasses root).map PassDecl.id).Perm (List.range' 1 (listPasses root).length)
  gids : (subIds root).Perm (List.range' 1 (subIds root).length)
  rootId : root.id = 0
  names : ∀ q g, getAt root q = some g → (g.passes.map PassDecl.name).Nodup
  gnames : ∀ q g, getAt root q = some g → (g.groups.map Group.name).Nodup

theorem range'_snoc (n : Nat) : List.range' 1 (n + 1) = List.range' 1 n ++ [n + 1] := by
  rw [List.range'_concat]; simp; omega

theorem getAt_append (r : Group) (p q : Path) (s : Group) (h : getAt r p = some s) :
    getAt r (p ++ q) = getAt s q := by
  induction p generalizing r with
  | nil => simp [getAt] at h; simp [h]
  | cons j p ih =>
    simp only [getAt, List.cons_append] at h ⊢
    split at h
    · simp [ih _ h]
    · simp at h

theorem inv_newGraph (name : String) : Inv (newGraph name) := by
  refine ⟨by simp [newGraph, listPasses, listPassesL], by simp [newGraph, subIds, subIdsL], rfl, ?_, ?_⟩ <;>
  · intro q g h
    cases q with
    | nil => simp [getAt, newGraph] at h; subst h; simp [Group.passes, Group.groups]
    | cons k q => simp [getAt, newGraph, Group.groups] at h

theorem set_map_name {gs : List Group} {k : Nat} {c d : Group} (h : gs[k]? = some c) (hn : d.name = c.name) :
    (gs.set k d).map Group.name = gs.map Group.name := by
  obtain ⟨a, b, h1, h2, _⟩ := set_split h d
  rw [h2, h1]; simp [hn]

theorem getAt_pushPass_cons (p g k q) : getAt (pushPass p g) (k :: q) = getAt g (k :: q) := by
  cases g; simp [pushPass, getAt, Group.groups]

theorem getAt_pushGroup_cons {c g k q t} (h : getAt (pushGroup c g) (k :: q) = some t) :
    getAt g (k :: q) = some t ∨ getAt c q = some t := by
  obtain ⟨i, n, ps, gs⟩ := g
  simp only [pushGroup, getAt, Group.groups] at h ⊢
  by_cases hk : k < gs.length
  · rw [List.getElem?_append_left hk] at h
    exact Or.inl h
  · rw [List.getElem?_append_right (by omega)] at h
    right
    by_cases hk2 : k - gs.length = 0
    · rw [hk2] at h; simpa using h
    · have : [c][k - gs.length]? = none := by simp; omega
      rw [this] at h; simp at h

theorem Inv.createPass {root : Group} (h : Inv root) (path : Path) (name : String) (g : Group)
    (hg : getAt root path = some g) (hno : hasPass g name = false) :
    Inv (updateAt root path (pushPass ⟨countPasses root + 1, name⟩)) := by
  have hl := updateAt_listPasses root path
    (pushPass ⟨countPasses root + 1, name⟩) g [⟨countPasses root + 1, name⟩] hg (pushPass_listPasses _ _)
  have hs := updateAt_subIds root path
    (pushPass ⟨countPasses root + 1, name⟩) g [] (pushPass_id _) hg (by simp [pushPass_subIds])
  refine ⟨?_, ?_, ?_, ?_, ?_⟩
  · have hlen := hl.length_eq
    simp only [List.length_append, List.length_cons, List.length_nil] at hlen
    rw [hlen, show 0 + 1 + (listPasses root).length = (listPasses root).length + 1 by omega, range'_snoc]
    refine (hl.map _).trans ?_
    simp only [List.map_append, List.map_cons, List.map_nil, countPasses_eq]
    exact List.perm_append_comm.trans (h.ids.append_right _)
  · have hlen := hs.length_eq
    simp only [List.nil_append] at hlen hs
    rw [hlen]
    exact hs.trans h.gids
  · rw [updateAt_id _ _ _ (pushPass_id _)]; exact h.rootId
  · refine updateAt_forall (P := fun g => (g.passes.map PassDecl.name).Nodup) root path _ ?_
      (pushPass_name _) (pushPass_id _) h.names ?_
    · intro i n ps gs k c d _ _ _ hp; exact hp
    · intro s hs' q t ht
      rw [hg] at hs'; cases hs'
      cases q with
      | nil =>
        obtain ⟨i, n, ps, gs⟩ := g
        simp [getAt, pushPass] at ht; subst ht
        have := h.names path _ hg
        simp [Group.passes] at this ⊢
        rw [List.nodup_append]
        refine ⟨this, by simp, ?_⟩
        intro a ha b hb
        simp at hb ha
        subst hb
        obtain ⟨p, hp, rfl⟩ := ha
        simp [hasPass, Group.passes] at hno
        exact hno p hp
      | cons k q =>
        rw [getAt_pushPass_cons] at ht
        exact h.names (path ++ (k :: q)) t (by rw [getAt_append _ _ _ _ hg, ht])
  · refine updateAt_forall (P := fun g => (g.groups.map Group.name).Nodup) root path _ ?_
      (pushPass_name _) (pushPass_id _) h.gnames ?_
    · intro i n ps gs k c d hc hn _ hp
      simpa [Group.groups, set_map_name hc hn] using hp
    · intro s hs' q t ht
      rw [hg] at hs'; cases hs'
      cases q with
      | nil =>
        have := h.gnames path _ hg
        cases g
        simp [getAt, pushPass] at ht; subst ht
        exact this
      | cons k q =>
        rw [getAt_pushPass_cons] at ht
        exact h.gnames (path ++ (k :: q)) t (by rw [getAt_append _ _ _ _ hg, ht])

theorem getAt_empty {i n q t} (h : getAt (.mk i n [] []) q = some t) : t = .mk i n [] [] := by
  cases q with
  | nil => simpa [getAt] using h.symm
  | cons k q => simp [getAt, Group.groups] at h

theorem Inv.createGroup {root : Group} (h : Inv root) (path : Path) (name : String) (g : Group)
    (hg : getAt root path = some g) (hno : ∀ c ∈ g.groups, c.name ≠ name) :
    Inv (updateAt root path (pushGroup (.mk (countGroups root + 1) name [] []))) := by
  have hl := updateAt_listPasses root path
    (pushGroup (.mk (countGroups root + 1) name [] [])) g [] hg (by simp [pushGroup_listPasses])
  have hs := updateAt_subIds root path
    (pushGroup (.mk (countGroups root + 1) name [] [])) g [countGroups root + 1] (pushGroup_id _) hg
      (pushGroup_subIds _ _ _)
  refine ⟨?_, ?_, ?_, ?_, ?_⟩
  · have hlen := hl.length_eq
    simp only [List.nil_append] at hlen hl
    rw [hlen]
    exact (hl.map _).trans h.ids
  · have hlen := hs.length_eq
    simp only [List.length_append, List.length_cons, List.length_nil] at hlen
    rw [hlen, show 0 + 1 + (subIds root).length = (subIds root).length + 1 by omega, range'_snoc]
    refine hs.trans ?_
    rw [countGroups_eq]
    exact List.perm_append_comm.trans (h.gids.append_right _)
  · rw [updateAt_id _ _ _ (pushGroup_id _)]; exact h.rootId
  · refine updateAt_forall (P := fun g => (g.passes.map PassDecl.name).Nodup) root path _ ?_
      (pushGroup_name _) (pushGroup_id _) h.names ?_
    · intro i n ps gs k c d _ _ _ hp; exact hp
    · intro s hs' q t ht
      rw [hg] at hs'; cases hs'
      cases q with
      | nil =>
        have := h.names path _ hg
        cases g
        simp [getAt, pushGroup] at ht; subst ht
        exact this
      | cons k q =>
        rcases getAt_pushGroup_cons ht with ht | ht
        · exact h.names (path ++ (k :: q)) t (by rw [getAt_append _ _ _ _ hg, ht])
        · rw [getAt_empty ht]; simp [Group.passes]
  · refine updateAt_forall (P := fun g => (g.groups.map Group.name).Nodup) root path _ ?_
      (pushGroup_name _) (pushGroup_id _) h.gnames ?_
    · intro i n ps gs k c d hc hn _ hp
      simpa [Group.groups, set_map_name hc hn] using hp
    · intro s hs' q t ht
      rw [hg] at hs'; cases hs'
      cases q with
      | nil =>
        have := h.gnames path _ hg
        obtain ⟨i, n, ps, gs⟩ := g
        simp [getAt, pushGroup] at ht; subst ht
        simp [Group.groups] at this hno ⊢
        rw [List.nodup_append]
        refine ⟨this, by simp, ?_⟩
        intro a ha b hb
        simp at hb ha
        subst hb
        obtain ⟨p, hp, rfl⟩ := ha
        exact hno p hp
      | cons k q =>
        rcases getAt_pushGroup_cons ht with ht | ht
        · exact h.gnames (path ++ (k :: q)) t (by rw [getAt_append _ _ _ _ hg, ht])
        · rw [getAt_empty ht]; simp [Group.groups]

theorem Inv.step {root : Group} (h : Inv root) (op : Op) : Inv (step root op).1 := by
  cases op with
  | createPass path name =>
    simp only [Groups.step]
    split
    · exact h
    · rename_i g hg
      split
      · exact h
      · rename_i hno
        exact h.createPass path name g hg (by simpa using hno)
  | createPassGroup path name =>
    simp only [Groups.step]
    split
    · exact h
    · rename_i g hg
      split
      · exact h
      · rename_i hno
        exact h.createGroup path name g hg (by simpa using hno)

theorem run_cons (root : Group) (op : Op) (ops : List Op) :
    run root (op :: ops) = ((run (step root op).1 ops).1, (step root op).2 :: (run (step root op).1 ops).2) := rfl

theorem Inv.run {root : Group} (h : Inv root) (ops : List Op) : Inv (run root ops).1 := by
  induction ops generalizing root with
  | nil => exact h
  | cons op ops ih => rw [run_cons]; exact ih (h.step op)

theorem inv_reachable {root : Group} (h : Reachable root) : Inv root := by
  obtain ⟨name, ops, rfl⟩ := h
  exact (inv_newGraph name).run ops

theorem step_listPasses (root : Group) (op : Op) :
    (listPasses (step root op).1).Perm (created [(step root op).2] ++ listPasses root) := by
  cases op with
  | createPass path name =>
    simp only [Groups.step]
    split
    · simp [created]
    · rename_i g hg
      split
      · simp [created]
      · exact updateAt_listPasses root path _ g [⟨countPasses root + 1, name⟩] hg (pushPass_listPasses _ _)
  | createPassGroup path name =>
    simp only [Groups.step]
    split
    · simp [created]
    · rename_i g hg
      split
      · simp [created]
      · simpa [created] using updateAt_listPasses root path
          (pushGroup (.mk (countGroups root + 1) name [] [])) g [] hg (by simp [pushGroup_listPasses])

theorem created_cons (o : Out) (os : List Out) : created (o :: os) = created [o] ++ created os := by
  cases o <;> simp [created]

theorem run_listPasses (root : Group) (ops : List Op) :
    (listPasses (run root ops).1).Perm (created (run root ops).2 ++ listPasses root) := by
  induction ops generalizing root with
  | nil => simp [run, created]
  | cons op ops ih =>
    rw [run_cons, created_cons]
    refine (ih _).trans ?_
    refine (List.Perm.append_left _ (step_listPasses root op)).trans ?_
    rw [List.append_assoc]
    exact List.perm_append_comm_assoc _ _ _

theorem groups_mk (i n ps gs) : (Group.mk i n ps gs).groups = gs := rfl

/-- Groups never lose passes or children and keep id and name: every reference stays valid. -/
theorem step_getAt {root : Group} (op : Op) {q : Path} {g : Group} (h : getAt root q = some g) :
    ∃ g', getAt (step root op).1 q = some g' ∧ g'.id = g.id ∧ g'.name = g.name
      ∧ (∃ x, g'.passes = g.passes ++ x) ∧ (g.groups.length ≤ g'.groups.length) := by
  have key : ∀ (path : Path) (f : Group → Group) (sub : Group), getAt root path = some sub →
      (∀ g, (f g).id = g.id) → (∀ g, (f g).name = g.name) → (∀ g, ∃ x, (f g).passes = g.passes ++ x) →
      (∀ g, ∃ x, (f g).groups = g.groups ++ x) →
      ∃ g', getAt (updateAt root path f) q = some g' ∧ g'.id = g.id ∧ g'.name = g.name
      ∧ (∃ x, g'.passes = g.passes ++ x) ∧ (g.groups.length ≤ g'.groups.length) := by
    intro path f sub hsub hi hn hp hgr
    clear op
    induction path generalizing root q with
    | nil =>
      simp only [updateAt]
      cases q with
      | nil =>
        simp [getAt] at h; subst h
        refine ⟨f root, by simp [getAt], hi _, hn _, hp _, ?_⟩
        obtain ⟨x, hx⟩ := hgr root
        simp [hx]
      | cons k q =>
        refine ⟨g, ?_, rfl, rfl, ⟨[], by simp⟩, Nat.le_refl _⟩
        obtain ⟨x, hx⟩ := hgr root
        simp only [getAt] at h ⊢
        split at h
        · rename_i c hc
          have hk : k < root.groups.length := (List.getElem?_eq_some_iff.1 hc).1
          rw [hx, List.getElem?_append_left hk, hc]
          exact h
        · simp at h
    | cons j p ih =>
      obtain ⟨i, n, ps, gs⟩ := root
      simp only [getAt, Group.groups] at hsub
      split at hsub
      · rename_i c hc
        simp only [updateAt, hc]
        cases q with
        | nil =>
          simp [getAt] at h; subst h
          exact ⟨_, rfl, rfl, rfl, ⟨[], by simp [Group.passes]⟩, by simp [Group.groups]⟩
        | cons k q =>
          simp only [getAt, groups_mk] at h ⊢
          have hj : j < gs.length := (List.getElem?_eq_some_iff.1 hc).1
          by_cases hjk : k = j
          · subst hjk
            rw [hc] at h
            have := ih h hsub
            simpa [hj] using this
          · rw [List.getElem?_set_ne (Ne.symm hjk)]
            split at h
            · exact ⟨g, h, rfl, rfl, ⟨[], by simp⟩, Nat.le_refl _⟩
            · simp at h
      · simp at hsub
  have triv : ∃ g', getAt root q = some g' ∧ g'.id = g.id ∧ g'.name = g.name
      ∧ (∃ x, g'.passes = g.passes ++ x) ∧ (g.groups.length ≤ g'.groups.length) :=
    ⟨g, h, rfl, rfl, ⟨[], by simp⟩, Nat.le_refl _⟩
  cases op with
  | createPass path name =>
    simp only [Groups.step]
    split
    · exact triv
    · rename_i sub hsub
      split
      · exact triv
      · exact key path _ sub hsub (pushPass_id _) (pushPass_name _)
          (fun g => by cases g; exact ⟨_, rfl⟩) (fun g => by cases g; exact ⟨[], by simp [pushPass, Group.groups]⟩)
  | createPassGroup path name =>
    simp only [Groups.step]
    split
    · exact triv
    · rename_i sub hsub
      split
      · exact triv
      · exact key path _ sub hsub (pushGroup_id _) (pushGroup_name _)
          (fun g => by cases g; exact ⟨[], by simp [pushGroup, Group.passes]⟩) (fun g => by cases g; exact ⟨_, rfl⟩)

theorem run_getAt {root : Group} (ops : List Op) {q : Path} {g : Group} (h : getAt root q = some g) :
    ∃ g', getAt (run root ops).1 q = some g' ∧ g'.id = g.id ∧ g'.name = g.name
      ∧ (∃ x, g'.passes = g.passes ++ x) := by
  induction ops generalizing root g with
  | nil => exact ⟨g, h, rfl, rfl, [], by simp⟩
  | cons op ops ih =>
    obtain ⟨g1, h1, h2, h3, ⟨x, h4⟩, _⟩ := step_getAt op h
    obtain ⟨g2, k1, k2, k3, ⟨y, k4⟩⟩ := ih h1
    exact ⟨g2, k1, k2.trans h2, k3.trans h3, x ++ y, by simp [k4, h4]⟩

end Verif.Groups
