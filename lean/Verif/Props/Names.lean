import Verif.Spec.Names
import Verif.Props.Groups
/-
C104: names tell what they name.
-/
namespace Verif.Names
open Verif.Groups

/-! ### Lists of characters -/

theorem last_slash {a b x y : List Char} (ha : '/' ∉ x) (hb : '/' ∉ y) (h : a ++ '/' :: x = b ++ '/' :: y) : a = b ∧ x = y := by
  induction a generalizing b with
  | nil =>
    cases b with
    | nil => simpa using h
    | cons c b =>
      simp only [List.nil_append, List.cons_append, List.cons.injEq] at h
      exact absurd (h.2 ▸ (by simp : '/' ∈ b ++ '/' :: y)) ha
  | cons c a ih =>
    cases b with
    | nil =>
      simp only [List.nil_append, List.cons_append, List.cons.injEq] at h
      exact absurd (h.2 ▸ (by simp : '/' ∈ a ++ '/' :: x)) hb
    | cons d b =>
      simp only [List.cons_append, List.cons.injEq] at h
      obtain ⟨h1, h2⟩ := ih h.2
      exact ⟨by rw [h.1, h1], h2⟩

theorem first_sep {sep : Char} {a b x y : List Char} (ha : sep ∉ a) (hb : sep ∉ b) (h : a ++ sep :: x = b ++ sep :: y) :
    a = b ∧ x = y := by
  induction a generalizing b with
  | nil =>
    cases b with
    | nil => simpa using h
    | cons c b =>
      simp only [List.nil_append, List.cons_append, List.cons.injEq] at h
      exact absurd (by rw [h.1]; simp) hb
  | cons c a ih =>
    cases b with
    | nil =>
      simp only [List.nil_append, List.cons_append, List.cons.injEq] at h
      exact absurd (by rw [h.1]; simp) ha
    | cons d b =>
      simp only [List.cons_append, List.cons.injEq] at h
      obtain ⟨h1, h2⟩ := ih (by simp at ha; exact ha.2) (by simp at hb; exact hb.2) h.2
      exact ⟨by rw [h.1, h1], h2⟩

theorem slash_toList (a b : String) : (a ++ "/" ++ b).toList = a.toList ++ '/' :: b.toList := by
  simp [String.toList_append]

theorem inj_of_nodup_map {α β} {f : α → β} {l : List α} (h : (l.map f).Nodup) {a b : α} (ha : a ∈ l) (hb : b ∈ l)
    (e : f a = f b) : a = b := by
  induction l with
  | nil => exact nomatch ha
  | cons x l ih =>
    simp only [List.map_cons, List.nodup_cons, List.mem_map, not_exists, not_and] at h
    rcases List.mem_cons.1 ha with h1 | h1 <;> rcases List.mem_cons.1 hb with h2 | h2
    · rw [h1, h2]
    · exact absurd (by rw [← e, h1]) (h.1 b h2)
    · exact absurd (by rw [e, h2]) (h.1 a h1)
    · exact ih h.2 h1 h2

/-! ### Full names -/

theorem fullNameFrom_snoc (acc : String) (g : Group) (path : Path) (k : Nat) (parent c : Group)
    (h : getAt g path = some parent) (hc : parent.groups[k]? = some c) :
    fullNameFrom acc g (path ++ [k]) = (fullNameFrom acc g path).map (fun n => n ++ "/" ++ c.name) := by
  induction path generalizing acc g with
  | nil =>
    simp only [getAt, Option.some.injEq] at h
    subst h
    simp [fullNameFrom, hc]
  | cons i path ih =>
    simp only [getAt] at h
    simp only [List.cons_append, fullNameFrom]
    cases hi : g.groups[i]? with
    | none => rw [hi] at h; exact nomatch h
    | some d => rw [hi] at h; exact ih _ d h

theorem fullNameFrom_isSome (acc : String) (g : Group) (path : Path) : (fullNameFrom acc g path).isSome = (getAt g path).isSome := by
  induction path generalizing acc g with
  | nil => rfl
  | cons i path ih =>
    simp only [fullNameFrom, getAt]
    cases g.groups[i]? with
    | none => rfl
    | some d => exact ih _ d

/-- C104. The full name of the default group is the name of the graph; that of another group is the full name of its parent, a
slash and its name (the code's own recursion). -/
theorem fullName_child (root : Group) (path : Path) (k : Nat) (parent c : Group)
    (h : IsGroup root path parent) (hc : parent.groups[k]? = some c) :
    fullName root [] = some root.name
    ∧ ∃ n, fullName root path = some n ∧ fullName root (path ++ [k]) = some (n ++ "/" ++ c.name) := by
  refine ⟨rfl, ?_⟩
  have hs := fullNameFrom_isSome root.name root path
  unfold IsGroup at h
  rw [h] at hs
  obtain ⟨n, hn⟩ := Option.isSome_iff_exists.1 hs
  refine ⟨n, hn, ?_⟩
  unfold fullName
  rw [fullNameFrom_snoc root.name root path k parent c h hc, hn]
  rfl

/-- Every group has a full name. -/
theorem fullName_exists (root : Group) (path : Path) (g : Group) (h : IsGroup root path g) : ∃ n, fullName root path = some n := by
  have hs := fullNameFrom_isSome root.name root path
  unfold IsGroup at h
  rw [h] at hs
  exact Option.isSome_iff_exists.1 hs

theorem fullNameFrom_prefix (acc : String) (g : Group) (path : Path) (n : String) (h : fullNameFrom acc g path = some n) :
    (path = [] ∧ n = acc) ∨ ∃ k p c, path = k :: p ∧ g.groups[k]? = some c ∧ fullNameFrom (acc ++ "/" ++ c.name) c p = some n := by
  cases path with
  | nil => simp only [fullNameFrom, Option.some.injEq] at h; exact .inl ⟨rfl, h.symm⟩
  | cons k p =>
    right
    simp only [fullNameFrom] at h
    cases hc : g.groups[k]? with
    | none => rw [hc] at h; exact nomatch h
    | some c => rw [hc] at h; exact ⟨k, p, c, rfl, hc, h⟩

/-- What follows the first name in a full name. -/
theorem fullNameFrom_rest (acc : String) (g : Group) (path : Path) (n : String) (h : fullNameFrom acc g path = some n) :
    ∃ rest, n.toList = acc.toList ++ rest ∧ (path = [] → rest = []) ∧ (path ≠ [] → ∃ r, rest = '/' :: r)
      ∧ ∃ t, rest ++ ['/'] = '/' :: t := by
  induction path generalizing acc g with
  | nil =>
    simp only [fullNameFrom, Option.some.injEq] at h
    subst h
    exact ⟨[], by simp, fun _ => rfl, fun h => absurd rfl h, [], rfl⟩
  | cons k p ih =>
    rcases fullNameFrom_prefix acc g (k :: p) n h with ⟨h, _⟩ | ⟨k', p', c, he, hc, hr⟩
    · exact nomatch h
    · cases he
      obtain ⟨rest, h1, _, _, _⟩ := ih _ c hr
      refine ⟨'/' :: (c.name.toList ++ rest), ?_, (fun h => nomatch h), (fun _ => ⟨_, rfl⟩), c.name.toList ++ rest ++ ['/'], rfl⟩
      rw [h1, slash_toList]
      simp

theorem getElem_name_inj {gs : List Group} (hd : (gs.map Group.name).Nodup) {i j : Nat} {c d : Group}
    (hi : gs[i]? = some c) (hj : gs[j]? = some d) (h : c.name = d.name) : i = j := by
  obtain ⟨hi', rfl⟩ := List.getElem?_eq_some_iff.1 hi
  obtain ⟨hj', rfl⟩ := List.getElem?_eq_some_iff.1 hj
  have hp := List.pairwise_iff_getElem.1 hd
  rcases Nat.lt_trichotomy i j with hl | hl | hl
  · exact absurd (by rw [List.getElem_map, List.getElem_map]; exact h) (hp i j (by simpa using hi') (by simpa using hj') hl)
  · exact hl
  · exact absurd (by rw [List.getElem_map, List.getElem_map]; exact h.symm) (hp j i (by simpa using hj') (by simpa using hi') hl)

theorem full_names_inj (g : Group) (hu : ∀ q d, getAt g q = some d → (d.groups.map Group.name).Nodup)
    (hs : ∀ q d, q ≠ [] → getAt g q = some d → NoSlash d.name) (acc : String) (p q : Path) (n : String)
    (hp : fullNameFrom acc g p = some n) (hq : fullNameFrom acc g q = some n) : p = q := by
  induction p generalizing g acc q with
  | nil =>
    obtain ⟨r1, e1, h1, _, _⟩ := fullNameFrom_rest _ _ _ _ hp
    obtain ⟨r2, e2, _, h2, _⟩ := fullNameFrom_rest _ _ _ _ hq
    rw [h1 rfl] at e1
    cases q with
    | nil => rfl
    | cons k q =>
      obtain ⟨r, hr⟩ := h2 (fun h => nomatch h)
      rw [e1, hr] at e2
      simp at e2
  | cons k p ih =>
    rcases fullNameFrom_prefix _ _ _ _ hp with ⟨h, _⟩ | ⟨k', p', c, he, hc, hpr⟩
    · exact nomatch h
    cases he
    rcases fullNameFrom_prefix _ _ _ _ hq with ⟨h, hn⟩ | ⟨k2, q', d, he, hd, hqr⟩
    · subst h
      obtain ⟨r1, e1, _, h1, _⟩ := fullNameFrom_rest _ _ _ _ hp
      obtain ⟨r, hr⟩ := h1 (fun h => nomatch h)
      rw [hn, hr] at e1
      simp at e1
    subst he
    -- the two next names are followed by nothing or a slash: they are equal
    obtain ⟨r1, e1, _, _, t1, ht1⟩ := fullNameFrom_rest _ _ _ _ hpr
    obtain ⟨r2, e2, _, _, t2, ht2⟩ := fullNameFrom_rest _ _ _ _ hqr
    have hcs : NoSlash c.name := hs [k] c (fun h => nomatch h) (by simp [getAt, hc])
    have hds : NoSlash d.name := hs [k2] d (fun h => nomatch h) (by simp [getAt, hd])
    rw [e1, slash_toList, slash_toList] at e2
    have e3 : c.name.toList ++ r1 = d.name.toList ++ r2 := by simpa using e2
    have e4 : c.name.toList ++ '/' :: t1 = d.name.toList ++ '/' :: t2 := by
      rw [← ht1, ← ht2, ← List.append_assoc, e3, List.append_assoc]
    have e5 : c.name = d.name := String.toList_inj.1 (first_sep hcs hds e4).1
    have ek : k = k2 := getElem_name_inj (hu [] g rfl) hc hd e5
    subst ek
    rw [hc] at hd
    cases hd
    rw [ih c (fun q d h => hu (k :: q) d (by simp only [getAt, hc]; exact h))
      (fun q d _ h => hs (k :: q) d (fun h => nomatch h) (by simp only [getAt, hc]; exact h)) _ q' hpr hqr]

/-- C104. In a graph whose groups' names do not contain the separator, two groups of the same full name are the same group. -/
theorem group_full_names_identify_partial (root : Group) (hr : Reachable root) (hs : NoSlashes root) (p q : Path) (n : String)
    (hp : fullName root p = some n) (hq : fullName root q = some n) : p = q :=
  full_names_inj root (fun q d h => sibling_group_names_unique root hr q d h) (fun q d hq h => hs.1 q d hq h) root.name p q n hp hq

/-- C104. In a graph whose groups' and passes' names do not contain the separator, two passes of the same full name are the same
pass of the same group. -/
theorem pass_full_names_identify_partial (root : Group) (hr : Reachable root) (hs : NoSlashes root) (p q : Path) (g h : Group)
    (a b : PassDecl) (hp : IsPass root p g a) (hq : IsPass root q h b) (n m : String) (hn : fullName root p = some n)
    (hm : fullName root q = some m) (e : passFullName n a = passFullName m b) : p = q ∧ a = b := by
  have e' := congrArg String.toList e
  unfold passFullName at e'
  rw [slash_toList, slash_toList] at e'
  obtain ⟨e1, e2⟩ := last_slash (hs.2 p g a hp) (hs.2 q h b hq) e'
  have e1 := String.toList_inj.1 e1
  have e2 := String.toList_inj.1 e2
  subst e1
  have hpq := group_full_names_identify_partial root hr hs p q n hn hm
  subst hpq
  have hgh : g = h := Option.some.inj (hp.1.symm.trans hq.1)
  subst hgh
  refine ⟨rfl, ?_⟩
  have hu := pass_names_unique root hr p g hp.1
  exact inj_of_nodup_map hu hp.2 hq.2 e2

/-! ### Names given by a group alone -/

/-- Every group of a graph has a name of its own. -/
def DistinctGroups (root : Group) : Prop :=
  ∀ p q g h, IsGroup root p g → IsGroup root q h → g.name = h.name → p = q

/-- C104. The name of a pass with its group — what its node, its timer and its objects are called — identifies the pass when no
two groups of the graph have the same name and passes' names do not contain the separator. -/
theorem group_names_identify_partial (root : Group) (hr : Reachable root) (hd : DistinctGroups root) (p q : Path) (g h : Group)
    (a b : PassDecl) (hs : NoSlash a.name) (ht : NoSlash b.name) (hp : IsPass root p g a) (hq : IsPass root q h b)
    (e : passGroupName g a = passGroupName h b) : p = q ∧ a = b := by
  have e' := congrArg String.toList e
  unfold passGroupName at e'
  rw [slash_toList, slash_toList] at e'
  obtain ⟨e1, e2⟩ := last_slash hs ht e'
  have hpq := hd p q g h hp.1 hq.1 (String.toList_inj.1 e1)
  subst hpq
  have hgh : g = h := Option.some.inj (hp.1.symm.trans hq.1)
  subst hgh
  exact ⟨rfl, inj_of_nodup_map (pass_names_unique root hr p g hp.1) hp.2 hq.2 (String.toList_inj.1 e2)⟩

theorem repr_inj {a b : Nat} (h : (Nat.repr a).toList = (Nat.repr b).toList) : a = b := by
  have h' : Nat.toDigits 10 a = Nat.toDigits 10 b := by simpa [Nat.repr] using h
  have := congrArg (fun l => Nat.ofDigitChars 10 l 0) h'
  simpa [Nat.ofDigitChars_toDigits] using this

theorem mem_repr {a : Nat} {c : Char} (h : c ∈ (Nat.repr a).toList) : c.isDigit := by
  have h' : c ∈ Nat.toDigits 10 a := by simpa [Nat.repr] using h
  exact Nat.isDigit_of_mem_toDigits (by omega) (by omega) h'

/-- C104. The label around the commands of a pass identifies it within its graph, whatever the names are: it holds the pass's
number. -/
theorem labels_identify (root : Group) (hr : Reachable root) (g h : Group) (a b : PassDecl)
    (ha : a ∈ listPasses root) (hb : b ∈ listPasses root) (e : blockLabel g a = blockLabel h b) : a = b := by
  have e' := congrArg String.toList e
  unfold blockLabel at e'
  simp only [String.toList_append] at e'
  have e2 : (Nat.repr a.id).toList ++ ']' :: (' ' :: (passGroupName g a).toList)
      = (Nat.repr b.id).toList ++ ']' :: (' ' :: (passGroupName h b).toList) := by simpa using e'
  have nd : ∀ n : Nat, ']' ∉ (Nat.repr n).toList := fun n hm => absurd (mem_repr hm) (by decide)
  exact inj_of_nodup_map (pass_ids_unique root hr) ha hb (repr_inj (first_sep (nd _) (nd _) e2).1)

/-! ### Names do not change -/

theorem getElem_set_name {gs : List Group} {k i : Nat} {c d x : Group} (hk : gs[k]? = some c) (h : gs[i]? = some x) :
    (gs.set k d)[i]? = some (if i = k then d else x) := by
  by_cases e : i = k
  · subst e
    rw [if_pos rfl, List.getElem?_set_self (List.getElem?_eq_some_iff.1 hk).1]
  · rw [if_neg e, List.getElem?_set_ne (fun h => e h.symm), h]

theorem updateAt_fullName (f : Group → Group) (hn : ∀ g, (f g).name = g.name)
    (hg : ∀ (g : Group) (i : Nat) (c : Group), g.groups[i]? = some c → (f g).groups[i]? = some c) (g : Group) (at_ path : Path) (acc n : String)
    (h : fullNameFrom acc g path = some n) : fullNameFrom acc (updateAt g at_ f) path = some n := by
  induction path generalizing g at_ acc with
  | nil => exact h
  | cons i path ih =>
    rcases fullNameFrom_prefix _ _ _ _ h with ⟨h', _⟩ | ⟨i', p', c, he, hc, hr⟩
    · exact nomatch h'
    cases he
    cases at_ with
    | nil =>
      simp only [updateAt, fullNameFrom, hg g i c hc]
      exact hr
    | cons k at_ =>
      obtain ⟨gi, gn, ps, gs⟩ := g
      simp only [updateAt]
      cases hk : gs[k]? with
      | none => exact h
      | some d =>
        simp only [fullNameFrom, Group.groups, getElem_set_name hk hc]
        by_cases e : i = k
        · subst e
          have hcd : c = d := Option.some.inj (hc.symm.trans hk)
          subst hcd
          rw [if_pos rfl, updateAt_name _ _ _ hn]
          exact ih c at_ _ hr
        · rw [if_neg e]
          exact hr

theorem step_fullName (root : Group) (op : Op) (path : Path) (n : String) (h : fullName root path = some n) :
    fullName (step root op).1 path = some n := by
  cases op with
  | createPass at_ nm =>
    simp only [step]
    split
    · exact h
    · split
      · exact h
      · show fullNameFrom (updateAt root at_ _).name _ path = some n
        rw [updateAt_name _ _ _ (pushPass_name _)]
        refine updateAt_fullName _ (pushPass_name _) (fun g i c hc => ?_) _ _ _ _ _ h
        cases g; exact hc
  | createPassGroup at_ nm =>
    simp only [step]
    split
    · exact h
    · split
      · exact h
      · show fullNameFrom (updateAt root at_ _).name _ path = some n
        rw [updateAt_name _ _ _ (pushGroup_name _)]
        refine updateAt_fullName _ (pushGroup_name _) (fun g i c hc => ?_) _ _ _ _ _ h
        cases g
        exact (List.getElem?_append_left (List.getElem?_eq_some_iff.1 hc).1).trans hc

/-- C104. Nothing that is created later changes the full name of a group, nor with it that of its passes. -/
theorem full_names_stable (root : Group) (ops : List Op) (path : Path) (n : String) (h : fullName root path = some n) :
    fullName (run root ops).1 path = some n := by
  induction ops generalizing root with
  | nil => exact h
  | cons op ops ih =>
    show fullName (run (step root op).1 ops).1 path = some n
    exact ih _ (step_fullName root op path n h)

/-! ### Names of attachments -/

theorem suffix_no_slash (c : AttachCall) : NoSlash c.suffix := by
  cases c <;> (unfold NoSlash; decide)

theorem suffix_iff (a b : AttachCall) : a.suffix = b.suffix ↔ SameSort a b := by
  unfold SameSort
  cases a <;> cases b <;> decide

theorem dropWhile_text {l : List Char} (h : ∃ c ∈ l, c ≠ '/') (m : List Char) :
    (l ++ m).dropWhile (· == '/') = l.dropWhile (· == '/') ++ m := by
  induction l with
  | nil => obtain ⟨c, hc, _⟩ := h; exact nomatch hc
  | cons x l ih =>
    by_cases e : x = '/'
    · subst e
      obtain ⟨c, hc, hn⟩ := h
      rcases List.mem_cons.1 hc with h1 | h1
      · exact absurd h1 hn
      · simpa using ih ⟨c, h1, hn⟩
    · simp [e]

/-- C104. Among the attachments of one pass (with a name that is not made of separators), an attachment's name tells the data it is
for and the sort of attachment — and it does not tell more than this. -/
theorem attachment_names_tell (pass d d' : String) (c c' : AttachCall) (hp : HasText pass) :
    attachName pass d c = attachName pass d' c' ↔ d = d' ∧ SameSort c c' := by
  constructor
  · intro e
    have e' := congrArg String.toList e
    unfold attachName at e'
    rw [slash_toList, slash_toList] at e'
    obtain ⟨e1, e2⟩ := last_slash (suffix_no_slash c) (suffix_no_slash c') e'
    refine ⟨?_, (suffix_iff c c').1 (String.toList_inj.1 e2)⟩
    unfold adjustName at e1
    simp only [String.toList_ofList] at e1
    rw [slash_toList, slash_toList, dropWhile_text hp, dropWhile_text hp] at e1
    have := List.append_cancel_left e1
    exact String.toList_inj.1 (List.cons.inj this).2
  · rintro ⟨rfl, h⟩
    unfold attachName
    rw [(suffix_iff c c').2 h]

/-- C104. No name of an attachment starts with the separator, unless neither the pass nor the data has a name. -/
theorem attachment_names_start (pass d : String) (c : AttachCall) :
    (attachName pass d c).toList.head? = some '/' ↔ ¬ HasText pass ∧ ¬ HasText d := by
  have key : ∀ (l m : List Char), (l.dropWhile (· == '/') ++ '/' :: m).head? = some '/' ↔ ∀ c ∈ l, c = '/' := by
    intro l m
    induction l with
    | nil => simp
    | cons x l ih =>
      by_cases e : x = '/'
      · subst e
        simpa using ih
      · simp [e]
  unfold attachName
  rw [slash_toList]
  unfold adjustName
  rw [String.toList_ofList, key, slash_toList]
  unfold HasText
  constructor
  · intro h
    refine ⟨fun ⟨x, hx, hn⟩ => hn (h x (by simp [hx])), fun ⟨x, hx, hn⟩ => hn (h x (by simp [hx]))⟩
  · rintro ⟨h1, h2⟩ x hx
    rcases List.mem_append.1 hx with h | h
    · exact Decidable.byContradiction fun e => h1 ⟨x, h, e⟩
    · rcases List.mem_cons.1 h with h | h
      · exact h
      · exact Decidable.byContradiction fun e => h2 ⟨x, h, e⟩

/-- C104. Across the passes of a graph: when groups' names are distinct and neither groups, passes nor data have the separator in
their names, and groups have names, the name of an attachment also tells the pass. -/
theorem attachment_names_identify_partial (root : Group) (hr : Reachable root) (hd : DistinctGroups root) (p q : Path)
    (g h : Group) (a b : PassDecl) (hp : IsPass root p g a) (hq : IsPass root q h b) (hs : NoSlash a.name) (ht : NoSlash b.name)
    (hg : HasText g.name ∧ g.name.toList.head? ≠ some '/') (hh : HasText h.name ∧ h.name.toList.head? ≠ some '/')
    (d d' : String) (hds : NoSlash d) (hdt : NoSlash d') (c c' : AttachCall)
    (e : attachName (passGroupName g a) d c = attachName (passGroupName h b) d' c') :
    p = q ∧ a = b ∧ d = d' ∧ SameSort c c' := by
  have e' := congrArg String.toList e
  unfold attachName at e'
  rw [slash_toList, slash_toList] at e'
  obtain ⟨e1, e2⟩ := last_slash (suffix_no_slash c) (suffix_no_slash c') e'
  have keep : ∀ (x : Group) (y : PassDecl) (z : String), HasText x.name ∧ x.name.toList.head? ≠ some '/' →
      (adjustName (passGroupName x y) z).toList = (passGroupName x y).toList ++ '/' :: z.toList := by
    intro x y z hx
    unfold adjustName
    rw [String.toList_ofList, slash_toList]
    unfold passGroupName
    rw [slash_toList]
    cases hl : x.name.toList with
    | nil => obtain ⟨⟨k, hk, _⟩, _⟩ := hx; rw [hl] at hk; exact nomatch hk
    | cons k l =>
      have : k ≠ '/' := fun hk => hx.2 (by rw [hl, hk]; rfl)
      simp [this]
  rw [keep g a d hg, keep h b d' hh] at e1
  obtain ⟨e3, e4⟩ := last_slash hds hdt e1
  obtain ⟨h1, h2⟩ := group_names_identify_partial root hr hd p q g h a b hs ht hp hq (String.toList_inj.1 e3)
  exact ⟨h1, h2, String.toList_inj.1 e4, (suffix_iff c c').1 (String.toList_inj.1 e2)⟩

/-! ### Examples -/

/-- The witness of Props/Groups.lean: nested groups. -/
def exRoot : Group := (run (newGraph "G") exOps).1

/-- A group per name and level, with passes of the same name. -/
def twinOps : List Op :=
  [ .createPassGroup [] "x", .createPassGroup [] "y", .createPassGroup [0] "h", .createPassGroup [1] "h"
  , .createPass [0, 0] "p", .createPass [1, 0] "p", .createPass [] "x" ]

/-- A separator in a name. -/
def slashOps : List Op :=
  [ .createPassGroup [] "a/b", .createPassGroup [] "a", .createPassGroup [1] "b", .createPass [0] "p", .createPass [1, 0] "p" ]

/-- What `getAt`, `createPassGroup` and `createPass` do, by computation. -/
macro "namessimp" : tactic => `(tactic|
  simp [exRoot, exOps, twinOps, slashOps, run, step, newGraph, getAt, updateAt, pushPass, pushGroup, hasPass, countPasses,
    countPassesL, countGroups, countGroupsL, Group.passes, Group.groups, Group.name, List.findIdx?_cons, fullName, fullNameFrom,
    passGroupName, passFullName, blockLabel, Nat.repr, Nat.toDigits, Nat.toDigitsCore, Nat.digitChar, listPasses, listPassesL])

theorem twin_root : (run (newGraph "G") twinOps).1
    = .mk 0 "G" [⟨3, "x"⟩] [.mk 1 "x" [] [.mk 3 "h" [⟨1, "p"⟩] []], .mk 2 "y" [] [.mk 4 "h" [⟨2, "p"⟩] []]] := by namessimp

theorem slash_root : (run (newGraph "G") slashOps).1
    = .mk 0 "G" [] [.mk 1 "a/b" [⟨1, "p"⟩] [], .mk 2 "a" [] [.mk 3 "b" [⟨2, "p"⟩] []]] := by namessimp

/-- C104. A separator in a group's name: two groups, and two passes, of the same full name. -/
theorem slashes_confuse : ∃ root p q g h a b n, Reachable root ∧ IsPass root p g a ∧ IsPass root q h b ∧ a ≠ b ∧ p ≠ q
    ∧ fullName root p = some n ∧ fullName root q = some n ∧ passFullName n a = passFullName n b := by
  refine ⟨_, [0], [1, 0], .mk 1 "a/b" [⟨1, "p"⟩] [], .mk 3 "b" [⟨2, "p"⟩] [], ⟨1, "p"⟩, ⟨2, "p"⟩, "G/a/b", ⟨"G", slashOps, rfl⟩, ?_⟩
  rw [slash_root]
  exact ⟨⟨rfl, List.mem_cons_self⟩, ⟨rfl, List.mem_cons_self⟩, by decide, by decide, rfl, rfl, rfl⟩

/-- C104. Without any separator in the names: the passes of two groups of the same name, in different groups, have the same node,
timer and object names (`getGroupName`), and each the same label but for its number. -/
theorem twins_share_group_name : ∃ root p q g h a b, Reachable root ∧ NoSlashes root ∧ IsPass root p g a ∧ IsPass root q h b ∧ a ≠ b
    ∧ passGroupName g a = passGroupName h b ∧ blockLabel g a ≠ blockLabel h b
    ∧ ∀ d c, attachName (passGroupName g a) d c = attachName (passGroupName h b) d c := by
  refine ⟨_, [0, 0], [1, 0], .mk 3 "h" [⟨1, "p"⟩] [], .mk 4 "h" [⟨2, "p"⟩] [], ⟨1, "p"⟩, ⟨2, "p"⟩, ⟨"G", twinOps, rfl⟩, ?_⟩
  rw [twin_root]
  have groups : ∀ path g, getAt (.mk 0 "G" [⟨3, "x"⟩] [.mk 1 "x" [] [.mk 3 "h" [⟨1, "p"⟩] []], .mk 2 "y" [] [.mk 4 "h" [⟨2, "p"⟩] []]]) path = some g →
      g ∈ ([.mk 0 "G" [⟨3, "x"⟩] [.mk 1 "x" [] [.mk 3 "h" [⟨1, "p"⟩] []], .mk 2 "y" [] [.mk 4 "h" [⟨2, "p"⟩] []]],
        .mk 1 "x" [] [.mk 3 "h" [⟨1, "p"⟩] []], .mk 2 "y" [] [.mk 4 "h" [⟨2, "p"⟩] []], .mk 3 "h" [⟨1, "p"⟩] [],
        .mk 4 "h" [⟨2, "p"⟩] []] : List Group) := by
    intro path g h
    match path, h with
    | [], h => cases h; simp
    | [0], h => cases h; simp
    | [1], h => cases h; simp
    | [0, 0], h => cases h; simp
    | [1, 0], h => cases h; simp
    | 0 :: 0 :: _ :: _, h => simp [getAt, Group.groups] at h
    | 1 :: 0 :: _ :: _, h => simp [getAt, Group.groups] at h
    | 0 :: (_ + 1) :: _, h => simp [getAt, Group.groups] at h
    | 1 :: (_ + 1) :: _, h => simp [getAt, Group.groups] at h
    | (_ + 2) :: _, h => simp [getAt, Group.groups] at h
  refine ⟨⟨fun path g _ hg => ?_, fun path g p hp => ?_⟩, ⟨rfl, List.mem_cons_self⟩, ⟨rfl, List.mem_cons_self⟩, by decide, rfl, ?_, fun _ _ => rfl⟩
  · have := groups path g hg
    simp only [List.mem_cons, List.not_mem_nil, or_false] at this
    rcases this with rfl | rfl | rfl | rfl | rfl <;> (unfold NoSlash; decide)
  · have := groups path g hp.1
    simp only [List.mem_cons, List.not_mem_nil, or_false] at this
    have hm := hp.2
    rcases this with rfl | rfl | rfl | rfl | rfl <;> simp only [Group.passes, List.mem_cons, List.not_mem_nil, or_false] at hm <;>
      (subst hm; unfold NoSlash; decide)
  · decide

/-- C104. A pass and a group of one group may have the same full name. -/
theorem pass_and_group_share_name : ∃ root p q g a n m, Reachable root ∧ IsPass root p g a ∧ fullName root p = some n
    ∧ fullName root q = some m ∧ passFullName n a = m := by
  refine ⟨(run (newGraph "G") twinOps).1, [], [0], (run (newGraph "G") twinOps).1, ⟨3, "x"⟩, "G", "G/x", ⟨"G", twinOps, rfl⟩, ?_⟩
  rw [twin_root]
  exact ⟨⟨rfl, List.mem_cons_self⟩, rfl, rfl, rfl⟩

/-- The hypotheses of the theorems above hold of a graph of nested groups. -/
theorem plainNames : ∃ root, Reachable root ∧ NoSlashes root ∧ DistinctGroups root ∧ listPasses root ≠ []
    ∧ fullName root [0, 0] = some "G/a/b" := by
  refine ⟨_, ⟨"G", [.createPassGroup [] "a", .createPassGroup [0] "b", .createPass [0, 0] "p", .createPass [] "p"], rfl⟩, ?_⟩
  have e : (run (newGraph "G") [.createPassGroup [] "a", .createPassGroup [0] "b", .createPass [0, 0] "p", .createPass [] "p"]).1
      = .mk 0 "G" [⟨2, "p"⟩] [.mk 1 "a" [] [.mk 2 "b" [⟨1, "p"⟩] []]] := by namessimp
  rw [e]
  have groups : ∀ path g, getAt (.mk 0 "G" [⟨2, "p"⟩] [.mk 1 "a" [] [.mk 2 "b" [⟨1, "p"⟩] []]]) path = some g →
      (path = [] ∧ g = .mk 0 "G" [⟨2, "p"⟩] [.mk 1 "a" [] [.mk 2 "b" [⟨1, "p"⟩] []]])
      ∨ (path = [0] ∧ g = .mk 1 "a" [] [.mk 2 "b" [⟨1, "p"⟩] []]) ∨ (path = [0, 0] ∧ g = .mk 2 "b" [⟨1, "p"⟩] []) := by
    intro path g h
    match path, h with
    | [], h => cases h; simp
    | [0], h => cases h; simp
    | [0, 0], h => cases h; simp
    | 0 :: 0 :: _ :: _, h => simp [getAt, Group.groups] at h
    | 0 :: (_ + 1) :: _, h => simp [getAt, Group.groups] at h
    | (_ + 1) :: _, h => simp [getAt, Group.groups] at h
  refine ⟨⟨fun path g _ hg => ?_, fun path g p hp => ?_⟩, fun p q g h hg hh hn => ?_, by simp [listPasses], rfl⟩
  · rcases groups path g hg with ⟨_, rfl⟩ | ⟨_, rfl⟩ | ⟨_, rfl⟩ <;> (unfold NoSlash; decide)
  · have hm := hp.2
    rcases groups path g hp.1 with ⟨_, rfl⟩ | ⟨_, rfl⟩ | ⟨_, rfl⟩ <;>
      simp only [Group.passes, List.mem_cons, List.not_mem_nil, or_false] at hm <;> (subst hm; unfold NoSlash; decide)
  · rcases groups p g hg with ⟨rfl, rfl⟩ | ⟨rfl, rfl⟩ | ⟨rfl, rfl⟩ <;> rcases groups q h hh with ⟨rfl, rfl⟩ | ⟨rfl, rfl⟩ | ⟨rfl, rfl⟩ <;>
      first | rfl | (exact absurd hn (by decide))

example : attachName "G/p" "colour" .sampled = "G/p/colour/Spl" := by decide
example : attachName "/p" "colour" .outputStorageBuffer = attachName "p" "colour" .clearableOutputStorageBuffer := by decide
/-- Without names at all, slashes remain in front. -/
example : attachName "/" "" .sampled = "/Spl" := by decide

end Verif.Names
