import Verif.Lemmas.RunnableGraph
/- Ordered maps: lookups after updates. -/
namespace Verif.Run
open Verif.Rec Verif.Att Verif.Gpu

namespace OMap
variable {α : Type}

theorem find_put (m : OMap α) (x : Nat) (v : α) (y : Nat) :
    OMap.find (OMap.put x v m) y = if x = y then some v else OMap.find m y := by
  induction m with
  | nil => simp [put, find]
  | cons kw r ih =>
    obtain ⟨k, w⟩ := kw
    unfold put
    by_cases h1 : x < k
    · rw [if_pos h1]; simp [find]
    · rw [if_neg h1]
      by_cases h2 : x = k
      · rw [if_pos h2]; subst h2; simp only [find]; split <;> rfl
      · rw [if_neg h2]
        simp only [find, ih]
        by_cases h3 : k = y
        · subst h3; simp [h2]
        · simp [h3]

/-- Keys strictly increase. -/
def Ok (m : OMap α) : Prop := (m.map (·.1)).Pairwise (· < ·)

theorem ok_nil : Ok ([] : OMap α) := List.Pairwise.nil

theorem mem_put_key {m : OMap α} {x : Nat} {v : α} {k : Nat} :
    k ∈ (put x v m).map (·.1) ↔ k = x ∨ k ∈ m.map (·.1) := by
  induction m with
  | nil => simp [put]
  | cons kw r ih =>
    obtain ⟨k', w⟩ := kw
    unfold put
    split
    · simp
    · split
      · rename_i h; subst h; simp
      · simp only [List.map_cons, List.mem_cons, ih]
        constructor
        · rintro (h | h | h) <;> simp [h]
        · rintro (h | h | h) <;> simp [h]

theorem ok_put {m : OMap α} (h : Ok m) (x : Nat) (v : α) : Ok (put x v m) := by
  induction m with
  | nil => simp [Ok, put]
  | cons kw r ih =>
    obtain ⟨k, w⟩ := kw
    unfold Ok at *
    simp only [List.map_cons, List.pairwise_cons] at h
    unfold put
    split
    · rename_i h1
      simp only [List.map_cons, List.pairwise_cons, List.mem_cons]
      refine ⟨?_, h.1, h.2⟩
      rintro a (rfl | ha)
      · exact h1
      · exact Nat.lt_trans h1 (h.1 a ha)
    · split
      · rename_i h2; subst h2
        simp only [List.map_cons, List.pairwise_cons]
        exact h
      · rename_i h1 h2
        simp only [List.map_cons, List.pairwise_cons]
        refine ⟨?_, ih h.2⟩
        intro a ha
        rcases mem_put_key.1 ha with rfl | ha
        · omega
        · exact h.1 a ha

theorem find_none_of_not_mem {m : OMap α} {x : Nat} (h : x ∉ m.map (·.1)) : OMap.find m x = none := by
  induction m with
  | nil => rfl
  | cons kw r ih =>
    simp only [List.map_cons, List.mem_cons, not_or] at h
    unfold find
    rw [if_neg (fun e => h.1 e.symm)]
    exact ih h.2

theorem find_isSome_iff {m : OMap α} {x : Nat} : (OMap.find m x).isSome ↔ x ∈ m.map (·.1) := by
  induction m with
  | nil => simp [find]
  | cons kw r ih =>
    unfold find
    split
    · rename_i h; simp [h]
    · rename_i h
      rw [ih]
      simp only [List.map_cons, List.mem_cons]
      constructor
      · exact Or.inr
      · rintro (h' | h')
        · exact absurd h'.symm h
        · exact h'

theorem find_mem {m : OMap α} {x : Nat} {v : α} (h : OMap.find m x = some v) : (x, v) ∈ m := by
  induction m with
  | nil => simp [find] at h
  | cons kw r ih =>
    obtain ⟨k, w⟩ := kw
    unfold find at h
    split at h
    · rename_i e; subst e; simp at h; subst h; simp
    · exact List.mem_cons_of_mem _ (ih h)

theorem find_of_mem {m : OMap α} (hm : Ok m) {x : Nat} {v : α} (h : (x, v) ∈ m) : OMap.find m x = some v := by
  induction m with
  | nil => simp at h
  | cons kw r ih =>
    obtain ⟨k, w⟩ := kw
    unfold Ok at *
    simp only [List.map_cons, List.pairwise_cons] at hm
    rcases List.mem_cons.1 h with he | he
    · cases he; simp [find]
    · have : k < x := hm.1 x (List.mem_map_of_mem he)
      unfold find
      rw [if_neg (by omega)]
      exact ih hm.2 he

theorem find_del {m : OMap α} (hm : Ok m) (x y : Nat) :
    OMap.find (OMap.del x m) y = if x = y then none else OMap.find m y := by
  induction m with
  | nil => simp [del, find]
  | cons kw r ih =>
    obtain ⟨k, w⟩ := kw
    unfold Ok at *
    simp only [List.map_cons, List.pairwise_cons] at hm
    unfold del
    split
    · rename_i h; subst h
      by_cases hxy : k = y
      · subst hxy
        rw [if_pos rfl]
        exact find_none_of_not_mem fun hk => absurd (hm.1 _ hk) (by omega)
      · rw [if_neg hxy]; simp [find, hxy]
    · rename_i h
      simp only [find, ih hm.2]
      by_cases hky : k = y
      · subst hky; simp [Ne.symm h]
      · simp [hky]

theorem del_sublist (x : Nat) (m : OMap α) : (del x m).Sublist m := by
  induction m with
  | nil => exact List.Sublist.refl _
  | cons kw r ih =>
    obtain ⟨k, w⟩ := kw
    unfold del
    split
    · exact List.sublist_cons_self _ _
    · exact ih.cons_cons _

theorem ok_del {m : OMap α} (h : Ok m) (x : Nat) : Ok (del x m) :=
  List.Pairwise.sublist ((del_sublist x m).map _) h

end OMap

open OMap in
/-- Folding `put` with one value over consecutive keys. -/
theorem find_putRange {α : Type} (s : α) (base n : Nat) (m : OMap α) (y : Nat) :
    OMap.find ((List.range n).foldl (fun n v => OMap.put (base + v) s n) m) y
      = if base ≤ y ∧ y < base + n then some s else OMap.find m y := by
  induction n generalizing y with
  | zero => rw [if_neg (by omega)]; rfl
  | succ n ih =>
    rw [List.range_succ, List.foldl_append]
    simp only [List.foldl_cons, List.foldl_nil]
    rw [find_put, ih]
    by_cases h : base + n = y
    · rw [if_pos h, if_pos (by omega)]
    · rw [if_neg h]
      by_cases h2 : base ≤ y ∧ y < base + n
      · rw [if_pos h2, if_pos (by omega)]
      · rw [if_neg h2, if_neg (by omega)]

theorem ok_putRange {α : Type} (s : α) (base n : Nat) (m : OMap α) (h : m.Ok) :
    OMap.Ok ((List.range n).foldl (fun n v => OMap.put (base + v) s n) m) := by
  induction n with
  | zero => exact h
  | succ n ih =>
    rw [List.range_succ, List.foldl_append]
    simp only [List.foldl_cons, List.foldl_nil]
    exact OMap.ok_put ih _ _

/-- Subresource of a layer map. -/
def Layers.at (m : Layers) (l v : Nat) : Option LayoutState := (OMap.find m l).bind (OMap.find · v)

/-- Well formed two-level map. -/
def Layers.Ok (m : Layers) : Prop := OMap.Ok m ∧ ∀ l n, OMap.find m l = some n → OMap.Ok n

theorem addRange_aux (r : Range) (s : LayoutState) (n : Nat) (m : Layers) :
    (∀ l v, Layers.at ((List.range n).foldl (fun m l =>
        OMap.put (r.baseLayer + l) ((List.range r.levels).foldl (fun n v => OMap.put (r.baseMip + v) s n)
          ((OMap.find m (r.baseLayer + l)).getD [])) m) m) l v
      = if (r.baseLayer ≤ l ∧ l < r.baseLayer + n) ∧ (r.baseMip ≤ v ∧ v < r.baseMip + r.levels) then some s
        else Layers.at m l v)
    ∧ (Layers.Ok m → Layers.Ok ((List.range n).foldl (fun m l =>
        OMap.put (r.baseLayer + l) ((List.range r.levels).foldl (fun n v => OMap.put (r.baseMip + v) s n)
          ((OMap.find m (r.baseLayer + l)).getD [])) m) m)) := by
  induction n with
  | zero => exact ⟨fun l v => by rw [if_neg (by omega)]; rfl, fun h => h⟩
  | succ n ih =>
    rw [List.range_succ, List.foldl_append]
    simp only [List.foldl_cons, List.foldl_nil]
    generalize (List.range n).foldl (fun m l =>
        OMap.put (r.baseLayer + l) ((List.range r.levels).foldl (fun n v => OMap.put (r.baseMip + v) s n)
          ((OMap.find m (r.baseLayer + l)).getD [])) m) m = m1 at *
    obtain ⟨ih1, ih2⟩ := ih
    refine ⟨?_, ?_⟩
    · intro l v
      have h0 := ih1 l v
      unfold Layers.at at h0 ⊢
      rw [OMap.find_put]
      by_cases hl : r.baseLayer + n = l
      · subst hl
        rw [if_pos rfl]
        simp only [Option.bind_some, find_putRange]
        by_cases hv : r.baseMip ≤ v ∧ v < r.baseMip + r.levels
        · rw [if_pos hv, if_pos ⟨by omega, hv⟩]
        · rw [if_neg hv, if_neg (fun hx => hv hx.2)]
          rw [if_neg (fun hx => hv hx.2)] at h0
          rw [← h0]
          cases OMap.find m1 (r.baseLayer + n) <;> rfl
      · rw [if_neg hl, h0]
        by_cases hc : (r.baseLayer ≤ l ∧ l < r.baseLayer + n) ∧ (r.baseMip ≤ v ∧ v < r.baseMip + r.levels)
        · rw [if_pos hc, if_pos ⟨by omega, hc.2⟩]
        · rw [if_neg hc, if_neg]
          rintro ⟨h1, h2⟩
          exact hc ⟨by omega, h2⟩
    · intro hm
      have h1 := ih2 hm
      refine ⟨OMap.ok_put h1.1 _ _, ?_⟩
      intro l k hk
      rw [OMap.find_put] at hk
      split at hk
      · simp only [Option.some.injEq] at hk
        subst hk
        apply ok_putRange
        cases hf : OMap.find m1 (r.baseLayer + n) with
        | none => exact OMap.ok_nil
        | some k => exact h1.2 _ k hf
      · exact h1.2 l k hk

theorem addRange_at (m : Layers) (r : Range) (s : LayoutState) (l v : Nat) :
    Layers.at (addRange m r s) l v = if r.Has l v then some s else Layers.at m l v := by
  have := (addRange_aux r s r.layers m).1 l v
  unfold addRange
  rw [this]
  have hiff : r.Has l v ↔
      (r.baseLayer ≤ l ∧ l < r.baseLayer + r.layers) ∧ (r.baseMip ≤ v ∧ v < r.baseMip + r.levels) := by
    unfold Range.Has; omega
  by_cases h : (r.baseLayer ≤ l ∧ l < r.baseLayer + r.layers) ∧ (r.baseMip ≤ v ∧ v < r.baseMip + r.levels)
  · rw [if_pos h, if_pos (hiff.2 h)]
  · rw [if_neg h, if_neg (fun hx => h (hiff.1 hx))]

theorem addRange_ok (m : Layers) (r : Range) (s : LayoutState) (h : Layers.Ok m) : Layers.Ok (addRange m r s) :=
  (addRange_aux r s r.layers m).2 h

/-- Well formed three-level map. -/
def Images.Ok (m : Images) : Prop := OMap.Ok m ∧ ∀ i n, OMap.find m i = some n → Layers.Ok n

theorem Images.at_eq (m : Images) (i l v : Nat) : Images.at m i l v = (OMap.find m i).bind (Layers.at · l v) := by
  unfold Images.at Layers.at
  cases OMap.find m i <;> rfl

theorem images_set_at (m : Images) (w : View) (s : LayoutState) (i l v : Nat) :
    Images.at (Images.set m w s) i l v
      = if i = w.image.id ∧ (getVirtualRange w.image w.viewType w.range).Has l v then some s
        else Images.at m i l v := by
  rw [Images.at_eq, Images.at_eq]
  unfold Images.set
  rw [OMap.find_put]
  by_cases h : w.image.id = i
  · subst h
    rw [if_pos rfl]
    simp only [Option.bind_some, addRange_at, true_and]
    split
    · rfl
    · cases OMap.find m w.image.id <;> rfl
  · rw [if_neg h, if_neg (fun hx => h hx.1.symm)]

theorem layers_ok_nil : Layers.Ok [] := ⟨OMap.ok_nil, by simp [OMap.find]⟩

theorem images_set_ok (m : Images) (w : View) (s : LayoutState) (h : Images.Ok m) : Images.Ok (Images.set m w s) := by
  refine ⟨OMap.ok_put h.1 _ _, ?_⟩
  intro i n hn
  unfold Images.set at hn
  rw [OMap.find_put] at hn
  split at hn
  · simp only [Option.some.injEq] at hn
    subst hn
    apply addRange_ok
    cases hf : OMap.find m w.image.id with
    | none => exact layers_ok_nil
    | some k => exact h.2 _ k hf
  · exact h.2 i n hn

theorem images_ok_nil : Images.Ok [] := ⟨OMap.ok_nil, by simp [OMap.find]⟩

theorem toMap_at (m : Images) (i l v : Nat) : m.toMap.at i l v = Images.at m i l v := by
  cases h : OMap.find m i <;> simp [Images.toMap, LayoutMap.at, Images.at, h]

/-- A property of all the intermediate maps of the constructor's loops. -/
theorem layouts_induct (sepDS : Bool) (p : RunPass) (P : Images → Prop) (h0 : P [])
    (hs : ∀ m, P m → ∀ a ∈ p.images, ∀ v ∈ a.img.views, P (Images.set m v
      ⟨a.getImageLayout sepDS, ⟨a.getAccessMask, a.getPipelineStageFlags p.compute⟩⟩)) :
    P (p.layouts sepDS) := by
  unfold RunPass.layouts
  have inner : ∀ (a : Attachment), a ∈ p.images → ∀ (vs : List View), (∀ v ∈ vs, v ∈ a.img.views) → ∀ m, P m →
      P (vs.foldl (fun m v => Images.set m v
        ⟨a.getImageLayout sepDS, ⟨a.getAccessMask, a.getPipelineStageFlags p.compute⟩⟩) m) := by
    intro a ha vs
    induction vs with
    | nil => intro _ m hm; exact hm
    | cons v vs ih =>
      intro hv m hm
      exact ih (fun x hx => hv x (by simp [hx])) _ (hs m hm a ha v (hv v (by simp)))
  have outer : ∀ (as : List Attachment), (∀ a ∈ as, a ∈ p.images) → ∀ m, P m →
      P (as.foldl (fun m a => (attachViews a).foldl (fun m v => Images.set m v
        ⟨a.getImageLayout sepDS, ⟨a.getAccessMask, a.getPipelineStageFlags p.compute⟩⟩) m) m) := by
    intro as
    induction as with
    | nil => intro _ m hm; exact hm
    | cons a as ih =>
      intro ha m hm
      exact ih (fun x hx => ha x (by simp [hx])) _
        (inner a (ha a (by simp)) a.img.views (fun _ h => h) m hm)
  exact outer p.images (fun _ h => h) [] h0

theorem layouts_ok (sepDS : Bool) (p : RunPass) : Images.Ok (p.layouts sepDS) :=
  layouts_induct sepDS p Images.Ok images_ok_nil fun m hm _ _ v _ => images_set_ok m v _ hm

/-- Inner loop of the merge. -/
theorem mergeInner_find (nl : OMap LayoutState) : ∀ (cur : OMap LayoutState) (acc : OMap LayoutState) (v : Nat),
    OMap.find (cur.foldl (fun inner (mc : Nat × LayoutState) =>
      match OMap.find nl mc.1 with | none => inner | some s => OMap.put mc.1 s inner) acc) v
      = if v ∈ cur.map (·.1) ∧ (OMap.find nl v).isSome then OMap.find nl v else OMap.find acc v := by
  intro cur
  induction cur with
  | nil => intro acc v; simp
  | cons kw cur ih =>
    obtain ⟨k, w⟩ := kw
    intro acc v
    rw [List.foldl_cons, ih]
    by_cases h1 : v ∈ cur.map (·.1) ∧ (OMap.find nl v).isSome
    · rw [if_pos h1, if_pos ⟨by simp only [List.map_cons, List.mem_cons]; exact Or.inr h1.1, h1.2⟩]
    · rw [if_neg h1]
      cases hk : OMap.find nl k with
      | none =>
        simp only
        rw [if_neg]
        rintro ⟨h2, h3⟩
        simp only [List.map_cons, List.mem_cons] at h2
        rcases h2 with rfl | h2
        · rw [hk] at h3; simp at h3
        · exact h1 ⟨h2, h3⟩
      | some s =>
        simp only
        rw [OMap.find_put]
        by_cases hkv : k = v
        · subst hkv
          rw [if_pos rfl, if_pos ⟨by simp, by rw [hk]; rfl⟩, hk]
        · rw [if_neg hkv, if_neg]
          rintro ⟨h2, h3⟩
          simp only [List.map_cons, List.mem_cons] at h2
          rcases h2 with rfl | h2
          · exact hkv rfl
          · exact h1 ⟨h2, h3⟩

/-- What the merge of two layer maps knows, layer by layer. -/
theorem merge_find (nxt : Layers) : ∀ (cur : Layers), OMap.Ok cur → ∀ (acc : Layers) (l : Nat),
    (∀ k ∈ cur.map (·.1), k ∉ acc.map (·.1)) →
    OMap.find (cur.foldl (fun res (lc : Nat × OMap LayoutState) =>
      match OMap.find nxt lc.1 with
      | none => res
      | some nl => OMap.put lc.1 (lc.2.foldl (fun inner (mc : Nat × LayoutState) =>
          match OMap.find nl mc.1 with
          | none => inner
          | some s => OMap.put mc.1 s inner) ((OMap.find res lc.1).getD [])) res) acc) l
    = match OMap.find cur l, OMap.find nxt l with
      | some cl, some nl => some (cl.foldl (fun inner (mc : Nat × LayoutState) =>
          match OMap.find nl mc.1 with | none => inner | some s => OMap.put mc.1 s inner) [])
      | _, _ => OMap.find acc l := by
  intro cur
  induction cur with
  | nil => intro _ acc l _; rfl
  | cons kw cur ih =>
    obtain ⟨k, w⟩ := kw
    intro hok acc l hdis
    unfold OMap.Ok at hok
    simp only [List.map_cons, List.pairwise_cons] at hok
    have hk : k ∉ acc.map (·.1) := hdis k (by simp)
    have hkc : k ∉ cur.map (·.1) := fun h => absurd (hok.1 k h) (by omega)
    rw [List.foldl_cons]
    simp only
    cases hn : OMap.find nxt k with
    | none =>
      simp only
      rw [ih hok.2 acc l fun x hx => hdis x (by simp only [List.map_cons, List.mem_cons]; exact Or.inr hx)]
      by_cases hkl : k = l
      · subst hkl
        rw [OMap.find_none_of_not_mem hkc]
        simp only [OMap.find, if_true, hn]
      · simp only [OMap.find, if_neg hkl]
    | some nl =>
      simp only
      rw [OMap.find_none_of_not_mem hk]
      simp only [Option.getD_none]
      rw [ih hok.2 _ l ?_]
      · by_cases hkl : k = l
        · subst hkl
          rw [OMap.find_none_of_not_mem hkc]
          simp only [OMap.find, if_true, hn, OMap.find_put]
        · simp only [OMap.find, if_neg hkl, OMap.find_put]
      · intro x hx hmem
        rcases OMap.mem_put_key.1 hmem with rfl | hmem
        · exact hkc hx
        · exact hdis x (by simp only [List.map_cons, List.mem_cons]; exact Or.inr hx) hmem

theorem mergeRanges_find (next : Images) (i : Nat) (cur : Layers) (hc : OMap.Ok cur) (l : Nat) :
    OMap.find (mergeRanges next i cur) l
    = match OMap.find cur l, (OMap.find next i).bind (OMap.find · l) with
      | some cl, some nl => some (cl.foldl (fun inner (mc : Nat × LayoutState) =>
          match OMap.find nl mc.1 with | none => inner | some s => OMap.put mc.1 s inner) [])
      | _, _ => none := by
  unfold mergeRanges
  cases hn : OMap.find next i with
  | none => simp only [Option.bind_none, OMap.find]; cases OMap.find cur l <;> rfl
  | some nxt =>
    exact merge_find nxt cur hc [] l (by simp)

theorem ok_mergeInner (nl : OMap LayoutState) : ∀ (cur : OMap LayoutState) (acc : OMap LayoutState), acc.Ok →
    OMap.Ok (cur.foldl (fun inner (mc : Nat × LayoutState) =>
      match OMap.find nl mc.1 with | none => inner | some s => OMap.put mc.1 s inner) acc) := by
  intro cur
  induction cur with
  | nil => intro acc h; exact h
  | cons kw cur ih =>
    intro acc h
    rw [List.foldl_cons]
    apply ih
    split
    · exact h
    · exact OMap.ok_put h _ _

theorem mergeRanges_ok (next : Images) (i : Nat) (cur : Layers) (hc : Layers.Ok cur) :
    Layers.Ok (mergeRanges next i cur) := by
  refine ⟨?_, ?_⟩
  · unfold mergeRanges
    split
    · exact OMap.ok_nil
    · rename_i nxt _
      have : ∀ (cur : Layers) (acc : Layers), OMap.Ok acc → OMap.Ok (cur.foldl (fun res (lc : Nat × OMap LayoutState) =>
        match OMap.find nxt lc.1 with
        | none => res
        | some nl => OMap.put lc.1 (lc.2.foldl (fun inner (mc : Nat × LayoutState) =>
            match OMap.find nl mc.1 with
            | none => inner
            | some s => OMap.put mc.1 s inner) ((OMap.find res lc.1).getD [])) res) acc) := by
        intro cur
        induction cur with
        | nil => intro acc h; exact h
        | cons kw cur ih =>
          intro acc h
          rw [List.foldl_cons]
          apply ih
          split
          · exact h
          · exact OMap.ok_put h _ _
      exact this cur [] OMap.ok_nil
  · intro l n hn
    rw [mergeRanges_find next i cur hc.1 l] at hn
    split at hn
    · simp only [Option.some.injEq] at hn
      subst hn
      exact ok_mergeInner _ _ _ OMap.ok_nil
    · simp at hn

/-- A merged subresource is one both know, with the next pass's state. -/
theorem mergeRanges_at (next : Images) (i : Nat) (cur : Layers) (hc : Layers.Ok cur) (l v : Nat) :
    Layers.at (mergeRanges next i cur) l v
      = if (Layers.at cur l v).isSome then Images.at next i l v else none := by
  rw [Images.at_eq]
  unfold Layers.at
  rw [mergeRanges_find next i cur hc.1 l]
  cases hcl : OMap.find cur l with
  | none => simp
  | some cl =>
    cases hn : OMap.find next i with
    | none => simp
    | some nxt =>
      cases hnl : OMap.find nxt l with
      | none => simp [hnl]
      | some nl =>
        simp only [Option.bind_some, hnl, mergeInner_find, OMap.find]
        have hm : (OMap.find cl v).isSome ↔ v ∈ cl.map (·.1) := OMap.find_isSome_iff
        by_cases h1 : (OMap.find cl v).isSome
        · simp only [h1, if_true, hm.1 h1, true_and]
          cases OMap.find nl v <;> simp
        · have h1' : v ∉ cl.map (·.1) := fun hx => h1 (hm.2 hx)
          simp [h1, h1']

/-- The merge is non-empty exactly when some layer is known to both. -/
theorem mergeRanges_nonempty (next : Images) (i : Nat) (cur : Layers) (hc : OMap.Ok cur) :
    (mergeRanges next i cur).isEmpty = false ↔
      ∃ l, (OMap.find cur l).isSome ∧ ((OMap.find next i).bind (OMap.find · l)).isSome := by
  have key : (mergeRanges next i cur).isEmpty = false ↔ ∃ l, (OMap.find (mergeRanges next i cur) l).isSome := by
    generalize mergeRanges next i cur = m
    cases m with
    | nil => simp [OMap.find]
    | cons kw r =>
      simp only [List.isEmpty_cons, true_iff]
      exact ⟨kw.1, by rw [OMap.find_isSome_iff]; simp⟩
  rw [key]
  constructor
  · rintro ⟨l, hl⟩
    rw [mergeRanges_find next i cur hc l] at hl
    refine ⟨l, ?_⟩
    split at hl
    · rename_i h1 h2; rw [h1, h2]; exact ⟨rfl, rfl⟩
    · simp at hl
  · rintro ⟨l, h1, h2⟩
    refine ⟨l, ?_⟩
    rw [mergeRanges_find next i cur hc l]
    obtain ⟨a, ha⟩ := Option.isSome_iff_exists.1 h1
    obtain ⟨b, hb⟩ := Option.isSome_iff_exists.1 h2
    rw [ha, hb]
    rfl

end Verif.Run
