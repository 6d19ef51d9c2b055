import Verif.Lemmas.GroupsInv
/-
C04 – C07: pass and group identity.
-/
namespace Verif.Groups

/-- Witness history: nested groups, a rejected duplicate, a re-opened group. -/
def exOps : List Op :=
  [ .createPass [] "a", .createPassGroup [] "g", .createPass [0] "a", .createPass [0] "b"
  , .createPassGroup [0] "h", .createPass [0, 0] "a", .createPass [0] "b", .createPassGroup [] "g"
  , .createPass [] "c" ]

example : (run (newGraph "G") exOps).2 =
  [ .pass [] ⟨1, "a"⟩, .group [0], .pass [0] ⟨2, "a"⟩, .pass [0] ⟨3, "b"⟩, .group [0, 0]
  , .pass [0, 0] ⟨4, "a"⟩, .duplicateName, .group [0], .pass [] ⟨5, "c"⟩ ] := by
  simp [run, step, exOps, newGraph, getAt, updateAt, pushPass, pushGroup, hasPass, countPasses, countPassesL,
    countGroups, countGroupsL, Group.passes, Group.groups, Group.name, List.findIdx?_cons]

/-! ### C04 -/

/-- C04. In any graph reached through the API all passes, in all groups, have pairwise different ids. -/
theorem pass_ids_unique (root : Group) (h : Reachable root) :
    ((listPasses root).map PassDecl.id).Nodup :=
  (inv_reachable h).ids.nodup_iff.2 List.nodup_range'

/-- C04, numbering: the ids handed out by the successful creations of a history are 1, 2, 3, … in call order. -/
theorem nth_pass_has_id_n (name : String) (ops : List Op) :
    (created (run (newGraph name) ops).2).map PassDecl.id
      = List.range' 1 (created (run (newGraph name) ops).2).length := by
  have : ∀ (root : Group), (created (run root ops).2).map PassDecl.id
      = List.range' ((listPasses root).length + 1) (created (run root ops).2).length := by
    induction ops with
    | nil => intro root; simp [run, created]
    | cons op ops ih =>
      intro root
      rw [run_cons, created_cons]
      simp only [List.map_append, List.length_append, ih]
      have hl := (step_listPasses root op).length_eq
      rw [List.length_append] at hl
      have hc : (created [(step root op).2]).map PassDecl.id
          = List.range' ((listPasses root).length + 1) (created [(step root op).2]).length := by
        cases op with
        | createPass path nm =>
          simp only [Groups.step]
          split
          · simp [created]
          · split
            · simp [created]
            · simp [created, countPasses_eq]
        | createPassGroup path nm =>
          simp only [Groups.step]
          split
          · simp [created]
          · split <;> simp [created]
      rw [hc, hl, ← List.range'_append_1]
      congr 2
      omega
  simpa [newGraph, listPasses, listPassesL] using this (newGraph name)

example : Reachable (run (newGraph "G") exOps).1 := ⟨_, _, rfl⟩

/-! ### C05 -/

/-- C05. `createPass` on an existing group throws iff the group already holds a pass of that name. -/
theorem createPass_throws_iff (root : Group) (path : Path) (g : Group) (hg : IsGroup root path g)
    (name : String) :
    (step root (.createPass path name)).2 = .duplicateName ↔ ∃ p ∈ g.passes, p.name = name := by
  unfold IsGroup at hg
  simp only [step, hg]
  split
  · rename_i h
    simp [hasPass] at h
    simpa using h
  · rename_i h
    simp [hasPass] at h
    simpa using h

/-- C05. A throwing `createPass` leaves the graph unchanged. -/
theorem createPass_throws_unchanged (root : Group) (path : Path) (name : String)
    (h : (step root (.createPass path name)).2 = .duplicateName) :
    (step root (.createPass path name)).1 = root := by
  simp only [step] at h ⊢
  split
  · rfl
  · split
    · rfl
    · rename_i g hg hn
      simp [hg, hn] at h

/-- C05. When it does not throw, the new pass has the asked name, is appended to that group, and nothing else
of the group changes. -/
theorem createPass_appends (root : Group) (path : Path) (g : Group) (hg : IsGroup root path g)
    (name : String) (hn : ∀ p ∈ g.passes, p.name ≠ name) :
    ∃ p, (step root (.createPass path name)).2 = .pass path p ∧ p.name = name
      ∧ IsGroup (step root (.createPass path name)).1 path (.mk g.id g.name (g.passes ++ [p]) g.groups) := by
  unfold IsGroup at *
  have : ¬ hasPass g name = true := by simp [hasPass]; exact hn
  simp only [step, hg, this]
  refine ⟨_, rfl, rfl, ?_⟩
  rw [if_neg (by simp), getAt_updateAt_same _ _ _ _ hg]
  cases g; rfl

/-- C05. Pass names are unique inside each group of a reachable graph. -/
theorem pass_names_unique (root : Group) (h : Reachable root) (path : Path) (g : Group)
    (hg : IsGroup root path g) : (g.passes.map PassDecl.name).Nodup :=
  (inv_reachable h).names path g hg

/-! ### C06 -/

/-- C06. When a child of that name exists, `createPassGroup` returns it and changes nothing. -/
theorem createPassGroup_existing (root : Group) (hr : Reachable root) (path : Path) (g : Group)
    (hg : IsGroup root path g) (k : Nat) (c : Group) (hc : g.groups[k]? = some c) :
    step root (.createPassGroup path c.name) = (root, .group (path ++ [k])) := by
  have hnd := (inv_reachable hr).gnames path g hg
  unfold IsGroup at hg
  simp only [step, hg]
  have : g.groups.findIdx? (fun d => d.name == c.name) = some k := by
    rw [List.findIdx?_eq_some_iff_getElem]
    have hk := (List.getElem?_eq_some_iff.1 hc)
    obtain ⟨hk, he⟩ := hk
    refine ⟨hk, by simp [he], ?_⟩
    intro j hj
    simp
    intro hn
    have h1 : (g.groups.map Group.name)[j]'(by simp; omega) = (g.groups.map Group.name)[k]'(by simp; omega) := by
      simp [hn, he]
    have := (List.getElem_inj hnd).1 h1
    omega
  simp [this]

/-- C06. When no child of that name exists, a new empty child is appended and returned. -/
theorem createPassGroup_new (root : Group) (path : Path) (g : Group) (hg : IsGroup root path g)
    (name : String) (hn : ∀ c ∈ g.groups, c.name ≠ name) :
    ∃ i, (step root (.createPassGroup path name)).2 = .group (path ++ [g.groups.length])
      ∧ IsGroup (step root (.createPassGroup path name)).1 path
          (.mk g.id g.name g.passes (g.groups ++ [.mk i name [] []])) := by
  unfold IsGroup at *
  have : g.groups.findIdx? (fun d => d.name == name) = none := by simpa using hn
  simp only [step, hg, this]
  refine ⟨countGroups root + 1, trivial, ?_⟩
  rw [getAt_updateAt_same _ _ _ _ hg]
  cases g; rfl

theorem run_snoc (r : Group) (ops : List Op) (op : Op) :
    (run r (ops ++ [op])).1 = (step (run r ops).1 op).1 := by
  induction ops generalizing r with
  | nil => simp [run]
  | cons o os ih => simp only [List.cons_append, run_cons]; exact ih _

/-- C06. Idempotence: calling it again returns the same group and changes nothing. -/
theorem createPassGroup_idempotent (root : Group) (hr : Reachable root) (path : Path) (g : Group)
    (hg : IsGroup root path g) (name : String) :
    step (step root (.createPassGroup path name)).1 (.createPassGroup path name)
      = ((step root (.createPassGroup path name)).1, (step root (.createPassGroup path name)).2) := by
  have hr' : Reachable (step root (.createPassGroup path name)).1 := by
    obtain ⟨nm, ops, rfl⟩ := hr
    refine ⟨nm, ops ++ [.createPassGroup path name], ?_⟩
    exact run_snoc _ _ _
  by_cases hex : ∃ c ∈ g.groups, c.name = name
  · obtain ⟨c, hc, rfl⟩ := hex
    obtain ⟨k, hk⟩ := List.mem_iff_getElem?.1 hc
    have e := createPassGroup_existing root hr path g hg k c hk
    simp [e]
  · have hn : ∀ c ∈ g.groups, c.name ≠ name := fun c hc he => hex ⟨c, hc, he⟩
    obtain ⟨i, h1, h2⟩ := createPassGroup_new root path g hg name hn
    have := createPassGroup_existing _ hr' path _ h2 g.groups.length (.mk i name [] []) (by simp [Group.groups])
    simp only [Group.name] at this
    rw [this, h1]

/-- C06. Sibling groups have different names. -/
theorem sibling_group_names_unique (root : Group) (h : Reachable root) (path : Path) (g : Group)
    (hg : IsGroup root path g) : (g.groups.map Group.name).Nodup :=
  (inv_reachable h).gnames path g hg

theorem getAt_id_mem {root : Group} : ∀ {p : Path} {g : Group}, p ≠ [] → getAt root p = some g → g.id ∈ subIds root
  | [], _, h, _ => absurd rfl h
  | k :: p, g, _, h => by
    obtain ⟨i, n, ps, gs⟩ := root
    simp only [getAt, Group.groups] at h
    split at h
    · rename_i c hc
      obtain ⟨a, b, h1, _, _⟩ := set_split hc c
      subst h1
      simp only [subIds, subIdsL_append, subIdsL]
      cases p with
      | nil => simp [getAt] at h; simp [h]
      | cons j p => simp [getAt_id_mem (by simp) h]
    · simp at h

theorem nodup_append_disj {α} {l r : List α} (h : (l ++ r).Nodup) {a : α} (hl : a ∈ l) (hr : a ∈ r) : False :=
  (List.nodup_append.1 h).2.2 a hl a hr rfl

theorem subIds_inj : ∀ {root : Group} {p q : Path} {g g' : Group}, (root.id :: subIds root).Nodup →
    getAt root p = some g → getAt root q = some g' → g.id = g'.id → p = q
  | root, [], [], _, _, _, _, _, _ => rfl
  | root, [], k :: q, g, g', hn, h1, h2, he => by
    simp [getAt] at h1; subst h1
    exact absurd (by rw [he]; exact getAt_id_mem (by simp) h2) (List.nodup_cons.1 hn).1
  | root, k :: p, [], g, g', hn, h1, h2, he => by
    simp [getAt] at h2; subst h2
    exact absurd (by rw [← he]; exact getAt_id_mem (by simp) h1) (List.nodup_cons.1 hn).1
  | .mk i n ps gs, k :: p, j :: q, g, g', hn, h1, h2, he => by
    have hn2 := (List.nodup_cons.1 hn).2
    simp only [getAt, Group.groups] at h1 h2
    simp only [subIds] at hn2
    split at h1
    · rename_i c hc
      split at h2
      · rename_i d hd
        obtain ⟨a, b, e1, _, la⟩ := set_split hc c
        have hm : ∀ {c : Group} {p : Path} {g : Group}, getAt c p = some g → g.id ∈ c.id :: subIds c := by
          intro c p g h
          cases p with
          | nil => simp [getAt] at h; simp [h]
          | cons k p => exact List.mem_cons_of_mem _ (getAt_id_mem (by simp) h)
        have hmL : ∀ {l : List Group} {c : Group} {x}, c ∈ l → x ∈ c.id :: subIds c → x ∈ subIdsL l := by
          intro l c x hc hx
          obtain ⟨s, t, rfl⟩ := List.append_of_mem hc
          simp only [subIdsL_append, subIdsL]
          simp at hx ⊢
          rcases hx with hx | hx <;> simp [hx]
        by_cases hjk : j = k
        · subst hjk
          rw [hc] at hd; cases hd
          subst e1
          simp only [subIdsL_append, subIdsL] at hn2
          have : (c.id :: subIds c).Nodup :=
            ((List.nodup_append.1 (List.nodup_append.1 hn2).2.1)).1
          rw [subIds_inj this h1 h2 he]
        · exfalso
          subst e1
          simp only [subIdsL_append, subIdsL] at hn2
          have hdm : d ∈ a ∨ d ∈ b := by
            rcases Nat.lt_or_gt_of_ne hjk with hlt | hgt
            · rw [List.getElem?_append_left (by omega)] at hd
              exact Or.inl (List.mem_of_getElem? hd)
            · rw [List.getElem?_append_right (by omega)] at hd
              obtain ⟨m, hm⟩ : ∃ m, j - a.length = m + 1 := ⟨j - a.length - 1, by omega⟩
              rw [hm] at hd
              simp at hd
              exact Or.inr (List.mem_of_getElem? hd)
          have hgc := hm h1
          have hgd := hm h2
          rw [← he] at hgd
          rcases hdm with hdm | hdm
          · exact nodup_append_disj hn2 (hmL hdm hgd) (by simp at hgc ⊢; rcases hgc with h | h <;> simp [h])
          · have := (List.nodup_append.1 hn2).2.1
            exact nodup_append_disj this hgc (hmL hdm hgd)
      · simp at h2
    · simp at h1

/-- C06. Two references with the same group id denote the same group. -/
theorem group_ids_unique (root : Group) (h : Reachable root) (p q : Path) (g g' : Group)
    (hp : IsGroup root p g) (hq : IsGroup root q g') (he : g.id = g'.id) : p = q := by
  have hi := inv_reachable h
  refine subIds_inj ?_ hp hq he
  rw [List.nodup_cons]
  refine ⟨?_, hi.gids.nodup_iff.2 List.nodup_range'⟩
  intro hm
  have := hi.gids.subset hm
  rw [hi.rootId, List.mem_range'_1] at this
  omega

/-! ### C07 -/

/-- C07. The passes handed to compilation are exactly those successfully created, each once. -/
theorem listPasses_complete (name : String) (ops : List Op) :
    (listPasses (run (newGraph name) ops).1).Perm (created (run (newGraph name) ops).2) := by
  simpa [newGraph, listPasses, listPassesL] using run_listPasses (newGraph name) ops

/-- C07. Every created pass stays in the group it was created in, whatever is called later. -/
theorem created_pass_stays (name : String) (ops later : List Op) (path : Path) (nm : String) (p : PassDecl)
    (h : (step (run (newGraph name) ops).1 (.createPass path nm)).2 = .pass path p) :
    ∃ g, IsGroup (run (step (run (newGraph name) ops).1 (.createPass path nm)).1 later).1 path g
      ∧ p ∈ g.passes := by
  generalize (run (newGraph name) ops).1 = r at h ⊢
  have : ∃ g, getAt (step r (.createPass path nm)).1 path = some g ∧ p ∈ g.passes := by
    simp only [step] at h ⊢
    cases hg : getAt r path with
    | none => simp [hg] at h
    | some g =>
      simp only [hg] at h ⊢
      split at h
      · simp at h
      · rename_i hn
        simp at h
        rw [if_neg hn, getAt_updateAt_same _ _ _ _ hg]
        refine ⟨_, rfl, ?_⟩
        cases g; simp [pushPass, Group.passes, h]
  obtain ⟨g, hg, hp⟩ := this
  obtain ⟨g', h1, _, _, ⟨x, h2⟩⟩ := run_getAt later hg
  exact ⟨g', h1, by simp [h2, hp]⟩

end Verif.Groups
