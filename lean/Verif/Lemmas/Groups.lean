import Verif.Model.Groups
import Verif.Lemmas.Util
/- Helper lemmas for the group tree. -/
namespace Verif.Groups

mutual
theorem countPasses_eq : ∀ g : Group, countPasses g = (listPasses g).length
  | .mk _ _ ps gs => by simp [countPasses, listPasses, countPassesL_eq gs]
theorem countPassesL_eq : ∀ gs : List Group, countPassesL gs = (listPassesL gs).length
  | [] => by simp [countPassesL, listPassesL]
  | g :: gs => by simp [countPassesL, listPassesL, countPasses_eq g, countPassesL_eq gs]
end

mutual
/-- Ids of the strict descendants of a group. -/
def subIds : Group → List Nat
  | .mk _ _ _ gs => subIdsL gs
/-- Ids of a list of groups and their descendants. -/
def subIdsL : List Group → List Nat
  | [] => []
  | g :: gs => g.id :: subIds g ++ subIdsL gs
end

mutual
theorem countGroups_eq : ∀ g : Group, countGroups g = (subIds g).length
  | .mk _ _ ps gs => by
    rw [countGroups, subIds, ← countGroupsL_eq gs]
theorem countGroupsL_eq : ∀ gs : List Group, gs.length + countGroupsL gs = (subIdsL gs).length
  | [] => by simp [countGroupsL, subIdsL]
  | g :: gs => by
    have := countGroups_eq g
    have := countGroupsL_eq gs
    simp [countGroupsL, subIdsL]; omega
end

theorem listPassesL_append (a b : List Group) :
    listPassesL (a ++ b) = listPassesL a ++ listPassesL b := by
  induction a with
  | nil => simp [listPassesL]
  | cons x xs ih => simp [listPassesL, ih]

theorem subIdsL_append (a b : List Group) : subIdsL (a ++ b) = subIdsL a ++ subIdsL b := by
  induction a with
  | nil => simp [subIdsL]
  | cons x xs ih => simp [subIdsL, ih]

theorem set_split {α} {l : List α} {k : Nat} {c : α} (h : l[k]? = some c) (d : α) :
    ∃ a b, l = a ++ c :: b ∧ l.set k d = a ++ d :: b ∧ a.length = k := by
  induction l generalizing k with
  | nil => simp at h
  | cons x xs ih =>
    cases k with
    | zero => simp at h; subst h; exact ⟨[], xs, by simp⟩
    | succ k =>
      simp at h
      obtain ⟨a, b, h1, h2, h3⟩ := ih h
      exact ⟨x :: a, b, by simp [h1], by simp [h2], by simp [h3]⟩

/-- Adding passes somewhere adds them to the list. -/
theorem updateAt_listPasses (g : Group) (path : Path) (f : Group → Group) (sub : Group) (x : List PassDecl)
    (hs : getAt g path = some sub) (hf : (listPasses (f sub)).Perm (x ++ listPasses sub)) :
    (listPasses (updateAt g path f)).Perm (x ++ listPasses g) := by
  induction path generalizing g with
  | nil => simp [getAt] at hs; subst hs; simpa [updateAt] using hf
  | cons k p ih =>
    obtain ⟨i, n, ps, gs⟩ := g
    simp only [getAt, Group.groups] at hs
    split at hs
    · rename_i c hc
      have h1 := ih c hs
      simp only [updateAt, hc]
      obtain ⟨a, b, h2, h3, _⟩ := set_split hc (updateAt c p f)
      rw [h3]
      conv => rhs; rw [h2]
      simp only [listPasses, listPassesL_append, listPassesL]
      have h4 : (ps ++ (listPassesL a ++ (listPasses (updateAt c p f) ++ listPassesL b))).Perm
          (ps ++ (listPassesL a ++ ((x ++ listPasses c) ++ listPassesL b))) :=
        List.Perm.append_left _ (List.Perm.append_left _ (h1.append_right _))
      refine h4.trans ?_
      have e1 : ps ++ (listPassesL a ++ ((x ++ listPasses c) ++ listPassesL b))
        = (ps ++ listPassesL a) ++ (x ++ (listPasses c ++ listPassesL b)) := by simp
      have e2 : x ++ (ps ++ (listPassesL a ++ (listPasses c ++ listPassesL b)))
        = x ++ ((ps ++ listPassesL a) ++ (listPasses c ++ listPassesL b)) := by simp
      rw [e1, e2]
      exact List.perm_append_comm_assoc _ _ _
    · simp at hs

theorem updateAt_id (g : Group) (path : Path) (f : Group → Group) (hf : ∀ g, (f g).id = g.id) :
    (updateAt g path f).id = g.id := by
  cases path with
  | nil => simp [updateAt, hf]
  | cons k p =>
    obtain ⟨i, n, ps, gs⟩ := g
    simp only [updateAt]
    split <;> rfl

theorem updateAt_name (g : Group) (path : Path) (f : Group → Group) (hf : ∀ g, (f g).name = g.name) :
    (updateAt g path f).name = g.name := by
  cases path with
  | nil => simp [updateAt, hf]
  | cons k p =>
    obtain ⟨i, n, ps, gs⟩ := g
    simp only [updateAt]
    split <;> rfl

theorem updateAt_subIds (g : Group) (path : Path) (f : Group → Group) (sub : Group) (x : List Nat)
    (hid : ∀ g, (f g).id = g.id)
    (hs : getAt g path = some sub) (hf : (subIds (f sub)).Perm (x ++ subIds sub)) :
    (subIds (updateAt g path f)).Perm (x ++ subIds g) := by
  induction path generalizing g with
  | nil => simp [getAt] at hs; subst hs; simpa [updateAt] using hf
  | cons k p ih =>
    obtain ⟨i, n, ps, gs⟩ := g
    simp only [getAt, Group.groups] at hs
    split at hs
    · rename_i c hc
      have h1 := ih c hs
      simp only [updateAt, hc]
      obtain ⟨a, b, h2, h3, _⟩ := set_split hc (updateAt c p f)
      rw [h3]
      conv => rhs; rw [h2]
      simp only [subIds, subIdsL_append, subIdsL, updateAt_id _ _ _ hid]
      have h4 : (subIdsL a ++ (c.id :: subIds (updateAt c p f) ++ subIdsL b)).Perm
          (subIdsL a ++ (c.id :: (x ++ subIds c) ++ subIdsL b)) :=
        List.Perm.append_left _ ((h1.cons _).append_right _)
      refine h4.trans ?_
      have e1 : subIdsL a ++ (c.id :: (x ++ subIds c) ++ subIdsL b)
        = (subIdsL a ++ [c.id]) ++ (x ++ (subIds c ++ subIdsL b)) := by simp
      have e2 : x ++ (subIdsL a ++ (c.id :: subIds c ++ subIdsL b))
        = x ++ ((subIdsL a ++ [c.id]) ++ (subIds c ++ subIdsL b)) := by simp
      rw [e1, e2]
      exact List.perm_append_comm_assoc _ _ _
    · simp at hs

/-- What is seen at another (or the same) path after an update that only grows the groups. -/
theorem getAt_updateAt_same (g : Group) (path : Path) (f : Group → Group) (sub : Group)
    (hs : getAt g path = some sub) : getAt (updateAt g path f) path = some (f sub) := by
  induction path generalizing g with
  | nil => simp [getAt] at hs; subst hs; simp [updateAt, getAt]
  | cons k p ih =>
    obtain ⟨i, n, ps, gs⟩ := g
    simp only [getAt, Group.groups] at hs
    split at hs
    · rename_i c hc
      have hk : k < gs.length := (List.getElem?_eq_some_iff.1 hc).1
      simp only [updateAt, hc, getAt, Group.groups]
      simp [hk, ih c hs]
    · simp at hs

/-- Every group after the update is the updated one, or a group that existed at the same path with the same own
passes and the same child names and id/name, or is inside the updated group. We state it as preservation of a predicate. -/
theorem updateAt_forall {P : Group → Prop} (g : Group) (path : Path) (f : Group → Group)
    (hP : ∀ (i n ps gs) (k : Nat) (c d : Group), gs[k]? = some c → d.name = c.name → d.id = c.id →
        P (.mk i n ps gs) → P (.mk i n ps (gs.set k d)))
    (hfn : ∀ g, (f g).name = g.name) (hfi : ∀ g, (f g).id = g.id)
    (hall : ∀ q s, getAt g q = some s → P s)
    (hf : ∀ s, getAt g path = some s → ∀ q t, getAt (f s) q = some t → P t) :
    ∀ q s, getAt (updateAt g path f) q = some s → P s := by
  induction path generalizing g with
  | nil =>
    intro q s h
    exact hf g (by simp [getAt]) q s (by simpa [updateAt] using h)
  | cons k p ih =>
    obtain ⟨i, n, ps, gs⟩ := g
    intro q s h
    simp only [updateAt] at h
    split at h
    · rename_i c hc
      cases q with
      | nil =>
        simp [getAt] at h; subst h
        exact hP i n ps gs k c _ hc (updateAt_name _ _ _ hfn) (updateAt_id _ _ _ hfi) (hall [] _ rfl)
      | cons j q =>
        simp only [getAt, Group.groups] at h
        split at h
        · rename_i d hd
          by_cases hjk : j = k
          · subst hjk
            have hj : j < gs.length := (List.getElem?_eq_some_iff.1 hc).1
            simp [hj] at hd
            subst hd
            refine ih c ?_ ?_ q s h
            · intro q' s' h'
              exact hall (j :: q') s' (by simp [getAt, Group.groups, hc, h'])
            · intro s' h'
              exact hf s' (by simp [getAt, Group.groups, hc, h'])
          · rw [List.getElem?_set_ne (Ne.symm hjk)] at hd
            exact hall (j :: q) s (by simp [getAt, Group.groups, hd, h])
        · simp at h
    · exact hall q s h

theorem pushPass_id (p) (g : Group) : (pushPass p g).id = g.id := by cases g; rfl
theorem pushPass_name (p) (g : Group) : (pushPass p g).name = g.name := by cases g; rfl
theorem pushGroup_id (p) (g : Group) : (pushGroup p g).id = g.id := by cases g; rfl
theorem pushGroup_name (p) (g : Group) : (pushGroup p g).name = g.name := by cases g; rfl

theorem pushPass_subIds (p) (g : Group) : subIds (pushPass p g) = subIds g := by
  cases g; simp [pushPass, subIds]
theorem pushGroup_listPasses (i n) (g : Group) : listPasses (pushGroup (.mk i n [] []) g) = listPasses g := by
  cases g; simp [pushGroup, listPasses, listPassesL_append, listPassesL]
theorem pushPass_listPasses (p) (g : Group) : (listPasses (pushPass p g)).Perm ([p] ++ listPasses g) := by
  cases g
  simp only [pushPass, listPasses, List.append_assoc]
  exact List.perm_append_comm_assoc _ _ _
theorem pushGroup_subIds (i n) (g : Group) : (subIds (pushGroup (.mk i n [] []) g)).Perm ([i] ++ subIds g) := by
  cases g
  simp only [pushGroup, subIds, subIdsL_append, subIdsL, Group.id]
  simp

end Verif.Groups
