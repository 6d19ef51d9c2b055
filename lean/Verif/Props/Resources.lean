import Verif.Lemmas.Resources
import Mathlib.Data.Fintype.BigOperators
import Mathlib.Data.Fintype.Prod
import Mathlib.Data.Fintype.EquivFin
import Mathlib.Data.Fintype.Pigeonhole
/-
C27, C28, C29, C52: ids, images and views, samplers and quad vertex buffers.
-/
namespace Verif.Res

/-! ## C27 -/

theorem idInit : IdInv {} := ⟨by simp, by simp, by simp⟩

/-- C27: two calls of `createImageId` never return the same id. -/
theorem image_ids_fresh (ops : List IdOp) (hl : ops.length < 2 ^ 32) (a b d e : Nat) (hab : a ≠ b)
    (ha : ops[a]? = some (.image d)) (hb : ops[b]? = some (.image e)) :
    (idRun {} ops).1[a]? ≠ (idRun {} ops).1[b]? := by
  rcases Nat.lt_or_gt_of_ne hab with h | h
  · exact idRun_fresh ops {} idInit (by simpa using hl) (by simpa using hl) a b d e h ha hb
  · exact (idRun_fresh ops {} idInit (by simpa using hl) (by simpa using hl) b a e d h hb ha).symm

/-- C27: two calls of `createViewId` return the same id iff they describe the same view of the same image. -/
theorem view_ids_iff (ops : List IdOp) (hl : ops.length < 2 ^ 32) (a b : Nat) (v w : ViewData)
    (ha : ops[a]? = some (.view v)) (hb : ops[b]? = some (.view w)) :
    (idRun {} ops).1[a]? = (idRun {} ops).1[b]? ↔ v.desc = w.desc := by
  have hl1 : ({} : Ids).images.length + ops.length < 2 ^ 32 := by simpa using hl
  have hl2 : ({} : Ids).views.length + ops.length < 2 ^ 32 := by simpa using hl
  obtain ⟨e, he, h1, h2⟩ := idRun_view ops {} idInit hl1 hl2 a v ha
  obtain ⟨f, hf, g1, g2⟩ := idRun_view ops {} idInit hl1 hl2 b w hb
  obtain ⟨hI, _, _⟩ := idRun_inv ops {} idInit hl1 hl2
  rw [h1, g1]
  simp only [Option.some.injEq]
  constructor
  · intro h
    have hn : ((idRun {} ops).2.views.map (·.1)).Nodup := by rw [hI.viewKeys]; exact List.nodup_range'
    have : e = f := eq_of_nodup_map hn he hf h
    rw [← h2, ← g2, this]
  · intro h
    have : e = f := eq_of_nodup_map (f := fun e => e.2.desc) hI.descs he hf (by rw [h2, g2, h])
    rw [this]

/-- C27: the id of an image resolves, at any later time, to the data given when it was created, and to nothing else. -/
theorem image_id_resolves (ops : List IdOp) (hl : ops.length < 2 ^ 32) (a d : Nat) (ha : ops[a]? = some (.image d)) :
    ∃ id, (idRun {} ops).1[a]? = some id ∧ (id, d) ∈ (idRun {} ops).2.images
      ∧ ∀ x, (id, x) ∈ (idRun {} ops).2.images → x = d := by
  have hl1 : ({} : Ids).images.length + ops.length < 2 ^ 32 := by simpa using hl
  have hl2 : ({} : Ids).views.length + ops.length < 2 ^ 32 := by simpa using hl
  obtain ⟨id, h1, _, h2⟩ := idRun_image ops {} idInit hl1 hl2 a d ha
  obtain ⟨hI, _, _⟩ := idRun_inv ops {} idInit hl1 hl2
  refine ⟨id, h1, h2, fun x hx => ?_⟩
  have hn : ((idRun {} ops).2.images.map (·.1)).Nodup := by rw [hI.imgKeys]; exact List.nodup_range'
  have := eq_of_nodup_map hn hx h2 rfl
  simpa using this

/-- C27 (partial): the id of a view resolves to exactly one view, of the same image with the same description.
Missing: the component mapping and the source views, see `view_components_lost`. -/
theorem view_id_resolves_partial (ops : List IdOp) (hl : ops.length < 2 ^ 32) (a : Nat) (v : ViewData)
    (ha : ops[a]? = some (.view v)) :
    ∃ id w, (idRun {} ops).1[a]? = some id ∧ (id, w) ∈ (idRun {} ops).2.views ∧ w.desc = v.desc
      ∧ ∀ x, (id, x) ∈ (idRun {} ops).2.views → x = w := by
  have hl1 : ({} : Ids).images.length + ops.length < 2 ^ 32 := by simpa using hl
  have hl2 : ({} : Ids).views.length + ops.length < 2 ^ 32 := by simpa using hl
  obtain ⟨e, he, h1, h2⟩ := idRun_view ops {} idInit hl1 hl2 a v ha
  obtain ⟨hI, _, _⟩ := idRun_inv ops {} idInit hl1 hl2
  refine ⟨e.1, e.2, h1, he, h2, fun x hx => ?_⟩
  have hn : ((idRun {} ops).2.views.map (·.1)).Nodup := by rw [hI.viewKeys]; exact List.nodup_range'
  have := eq_of_nodup_map hn hx he rfl
  rw [← this]

/-- C27 is false for component mappings and source views: a view created after another that only differs by them gets
the other's id, which resolves to the other's mapping and sources; its own are nowhere. -/
theorem view_components_lost (d : ViewDesc) (c c' : Nat) (s s' : List Nat) (hne : c ≠ c' ∨ s ≠ s') :
    let r := idRun {} [.view ⟨d, c, s⟩, .view ⟨d, c', s'⟩]
    r.1 = [1, 1] ∧ r.2.views = [(1, ⟨d, c, s⟩)] ∧ ∀ id, (id, (⟨d, c', s'⟩ : ViewData)) ∉ r.2.views := by
  have h : idRun {} [.view ⟨d, c, s⟩, .view ⟨d, c', s'⟩] = ([1, 1], { views := [(1, ⟨d, c, s⟩)] }) := by
    simp [idRun, idStep, createViewId, tryEmplace]
  simp only [h]
  refine ⟨trivial, trivial, fun id hm => ?_⟩
  simp only [List.mem_singleton, Prod.mk.injEq, ViewData.mk.injEq, true_and] at hm
  rcases hne with h | h
  · exact h hm.2.1.symm
  · exact h hm.2.2.symm

/-- The hypotheses of the C27 theorems are met: two images, two views of the first, one of the second. -/
example :
    let d1 : ViewDesc := ⟨1, 0, .d2, 37, ⟨1, 0, 1, 0, 1⟩⟩
    let d2 : ViewDesc := ⟨2, 0, .d2, 37, ⟨1, 0, 1, 0, 1⟩⟩
    (idRun {} [.image 7, .view { desc := d1 }, .image 7, .view { desc := d2 }, .view { desc := d1 }]).1 = [1, 1, 2, 2, 1] := by
  decide

/-! ## C28 -/

/-- C28: over any history of calls through any caches, the driver is only asked to destroy objects it created and
did not destroy yet, and never gives the same handle twice; the live objects are those the handler knows. -/
theorem destroyed_once (ops : List Op) :
    ∃ live, Lawful [] [] (run {} ops).handler.log live
      ∧ ∀ h, h ∈ live ↔ (∃ i, find (run {} ops).handler.images i = some h) ∨ ∃ v, find (run {} ops).handler.views v = some h := by
  have hI := run_inv ops
  obtain ⟨live, hl, hm⟩ := hI.lawful
  refine ⟨live, hl, fun h => ?_⟩
  rw [hm]
  simp only [handles, List.mem_append, List.mem_map, Prod.exists, exists_eq_right]
  constructor
  · rintro (⟨i, hi⟩ | ⟨i, hi⟩)
    · exact Or.inl ⟨i, find_eq_of_mem hI.imgKeys hi⟩
    · exact Or.inr ⟨i, find_eq_of_mem hI.viewKeys hi⟩
  · rintro (⟨i, hi⟩ | ⟨i, hi⟩)
    · exact Or.inl ⟨i, find_some_mem hi⟩
    · exact Or.inr ⟨i, find_some_mem hi⟩

/-- Lawful series of calls destroy nothing twice: between two destructions... there is no second one. -/
theorem lawful_no_double {old live es live'} (h : Lawful old live es live') (hs : ∀ k ∈ live, k ∈ old) (k : Nat)
    (hk : k ∉ live) (ho : k ∈ old) : ∀ c, Event.destroy c k ∉ es := by
  induction h with
  | nil => simp
  | create c j hn _ ih =>
    intro c'
    have : k ≠ j := fun e => hn (e ▸ ho)
    simp only [List.mem_cons, reduceCtorEq, false_or]
    exact ih (fun x hx => by
      rcases List.mem_cons.mp hx with rfl | hx
      · exact List.mem_cons_self
      · exact List.mem_cons_of_mem _ (hs x hx)) (by simp [this, hk]) (List.mem_cons_of_mem _ ho) c'
  | destroy c j hm _ ih =>
    intro c'
    simp only [List.mem_cons, Event.destroy.injEq, not_or, not_and]
    refine ⟨fun _ e => hk (e ▸ hm), ih (fun x hx => hs x (List.mem_filter.mp hx).1) (fun hx => hk (List.mem_filter.mp hx).1) ho c'⟩

/-- C28, in the words of the property: no handle is destroyed twice. -/
theorem never_destroyed_twice (ops : List Op) (c d k : Nat) (pre mid post : List Event) :
    (run {} ops).handler.log ≠ pre ++ [.destroy c k] ++ mid ++ [.destroy d k] ++ post := by
  intro he
  obtain ⟨live, hl, _⟩ := (run_inv ops).lawful
  rw [he] at hl
  have key : ∀ (pre : List Event) {old live live' : List Nat}, (∀ k ∈ live, k ∈ old) →
      Lawful old live (pre ++ ([.destroy c k] ++ mid ++ [.destroy d k] ++ post)) live' → False := by
    intro pre
    induction pre with
    | nil =>
      intro old live live' hs hl
      cases hl with
      | destroy _ _ hm h2 =>
        refine lawful_no_double h2 (fun x hx => hs x (List.mem_filter.mp hx).1) k (by simp) (hs k hm) d ?_
        simp
    | cons e pre ih =>
      intro old live live' hs hl
      cases hl with
      | create _ j hn h2 =>
        exact ih (fun x hx => by
          rcases List.mem_cons.mp hx with rfl | hx
          · exact List.mem_cons_self
          · exact List.mem_cons_of_mem _ (hs x hx)) h2
      | destroy _ _ hm h2 => exact ih (fun x hx => hs x (List.mem_filter.mp hx).1) h2
  exact key pre (old := []) (live := []) (by simp) (by simpa using hl)

/-- C28: a repeated request for an image, from any cache, returns the same handle as long as that was not destroyed. -/
theorem repeated_creation_same (s : State) (c c' i : Nat) (ops : List Op)
    (hnd : ∀ d, Event.destroy d (imageHandle s c i) ∉ (run (step s (.createImage c i)) ops).handler.log) :
    imageHandle (run (step s (.createImage c i)) ops) c' i = imageHandle s c i := by
  have hk : Keeps i (imageHandle s c i) (step s (.createImage c i)).handler := by
    left
    simp only [step, imageHandle, Handler.createImage]
    cases hf : find s.handler.images i with
    | some h => simpa using hf
    | none =>
      simp only
      unfold find at hf ⊢
      simp only [Option.map_eq_none_iff] at hf
      simp [List.find?_append, hf]
  rcases keeps_run hk ops with h | ⟨d, h⟩
  · unfold imageHandle at h ⊢
    conv_lhs => unfold Handler.createImage
    simp only [h]
  · exact absurd h (hnd d)

/-- C28 (partial): when every cache that was used is closed, nothing is left: the driver has no live object of the
handler, provided the image of each view was created before the view. Missing: views requested before their image,
see `view_first_leaks`. -/
theorem all_closed_nothing_left_partial (ops : List Op) (cs : List Nat) (hcs : ∀ op ∈ ops, op.ctx ∈ cs)
    (hf : ImagesFirst {} ops) :
    Lawful [] [] (run {} (ops ++ cs.map .close)).handler.log [] := by
  have h0 : Owned {} := ⟨by simp, by simp⟩
  have h1 : Owned (run {} ops) := owned_run ops {} h0 hf
  have h2 : Owned (run (run {} ops) (cs.map .close)) := by
    refine owned_run _ _ h1 ?_
    have : ∀ (cs : List Nat) (s : State), ImagesFirst s (cs.map .close) := by
      intro cs
      induction cs with
      | nil => intro s; trivial
      | cons c cs ih => intro s; exact ⟨trivial, ih _⟩
    exact this _ _
  have e : run {} (ops ++ cs.map .close) = run (run {} ops) (cs.map .close) := by simp [run, List.foldl_append]
  have hempty : ∀ d, (run (run {} ops) (cs.map .close)).caches d = {} := by
    intro d
    rw [run_closes]
    split
    · rfl
    · rename_i hd
      rw [run_caches ops {} d (fun op ho h => hd (h ▸ hcs op ho))]
  obtain ⟨live, hl, hm⟩ := (run_inv (ops ++ cs.map .close)).lawful
  rw [e] at hl hm ⊢
  have : live = [] := by
    rw [List.eq_nil_iff_forall_not_mem]
    intro h hh
    have := (hm h).mp hh
    simp only [handles, List.mem_append, List.mem_map, Prod.exists, exists_eq_right] at this
    rcases this with ⟨i, hi⟩ | ⟨i, hi⟩
    · obtain ⟨c, hc⟩ := h2.images i (List.mem_map.mpr ⟨_, hi, rfl⟩)
      simp [hempty] at hc
    · obtain ⟨c, hc⟩ := h2.views i (List.mem_map.mpr ⟨_, hi, rfl⟩)
      simp [hempty] at hc
  rw [this] at hl
  exact hl

/-- The hypotheses of `all_closed_nothing_left_partial` are met: two contexts share an image. -/
example : ImagesFirst {} [.createImage 0 5, .createView 0 7 5, .createImage 1 5, .createView 1 8 5, .destroyView 0 7] := by
  simp [ImagesFirst, step, Handler.createImage, Handler.createView, find]

/-- C28 is false of a view requested before its image: the image created with it is in no cache, and stays alive
whatever caches are closed. -/
theorem view_first_leaks (cs : List Nat) :
    ∃ live, Lawful [] [] (run {} (.createView 0 7 5 :: cs.map .close)).handler.log live ∧ 1 ∈ live := by
  obtain ⟨live, hl, hm⟩ := (run_inv (.createView 0 7 5 :: cs.map .close)).lawful
  refine ⟨live, hl, (hm 1).mpr ?_⟩
  have key : ∀ (cs : List Nat) (s : State), (5, 1) ∈ s.handler.images → (∀ c, 5 ∉ (s.caches c).images) →
      (5, 1) ∈ (run s (cs.map .close)).handler.images := by
    intro cs
    induction cs with
    | nil => intro s h _; exact h
    | cons c cs ih =>
      intro s h hc
      refine ih (step s (.close c)) ?_ ?_
      · have hfold : ∀ (l : List Nat) (h : Handler), (5, 1) ∈ h.images → 5 ∉ l →
            (5, 1) ∈ (l.foldl (fun h i => h.destroyImage c i) h).images := by
          intro l
          induction l with
          | nil => intro h hh _; exact hh
          | cons x l ihl =>
            intro h hh hx
            simp only [List.mem_cons, not_or] at hx
            refine ihl (h.destroyImage c x) ?_ hx.2
            unfold Handler.destroyImage
            split
            · exact mem_erase'.mpr ⟨hh, hx.1⟩
            · exact hh
        simp only [step]
        refine hfold _ _ ?_ (hc c)
        rw [(foldl_destroyView c _ _).2]
        exact h
      · intro d
        simp only [step, setCache]
        split
        · simp
        · exact hc d
  have h1 := key cs (step {} (.createView 0 7 5)) (by decide) (by
    intro c
    simp [step, Handler.createView, Handler.createImage, find, setCache]
    split <;> simp)
  exact List.mem_append_left _ (List.mem_map.mpr ⟨_, h1, rfl⟩)

/-- C28: a cache may destroy an image another cache created: the first cache (context 0) still lists the image it
destroyed, and destroys it again, with its own device, when it is closed, although context 1 created it anew. -/
theorem closing_destroys_foreign_image :
    (run {} [.createImage 0 5, .destroyImage 0 5, .createImage 1 5, .close 0]).handler.log
      = [.create 0 1, .destroy 0 1, .create 1 2, .destroy 0 2] := by
  decide

/-- C28: an image or view created through a cache and asked to be destroyed through the same cache, whatever is done in between that
destroys nothing of it (no cache is closed, and no request to destroy that id), is destroyed, with the device of that cache, and unknown then. -/
theorem explicit_destroy (s : State) (c i : Nat) (mid : List Op)
    (hmid : ∀ op ∈ mid, (∀ d, op ≠ .close d) ∧ (∀ d, op ≠ .destroyImage d i) ∧ ∀ d, op ≠ .destroyView d i) :
    (find s.handler.images i = none →
      let s' := run s (.createImage c i :: mid)
      (step s' (.destroyImage c i)).handler.log = s'.handler.log ++ [.destroy c (imageHandle s c i)]
      ∧ find (step s' (.destroyImage c i)).handler.images i = none)
    ∧ (∀ j, find s.handler.views i = none →
      let s' := run s (.createView c i j :: mid)
      (step s' (.destroyView c i)).handler.log = s'.handler.log ++ [.destroy c (viewHandle s c i j)]
      ∧ find (step s' (.destroyView c i)).handler.views i = none) := by
  have keep : ∀ (mid : List Op) (s : State) (h : Nat),
      (∀ op ∈ mid, (∀ d, op ≠ .close d) ∧ (∀ d, op ≠ .destroyImage d i) ∧ ∀ d, op ≠ .destroyView d i) →
      (find s.handler.images i = some h → i ∈ (s.caches c).images →
        find (run s mid).handler.images i = some h ∧ i ∈ ((run s mid).caches c).images)
      ∧ (find s.handler.views i = some h → i ∈ (s.caches c).views →
        find (run s mid).handler.views i = some h ∧ i ∈ ((run s mid).caches c).views) := by
    intro mid
    induction mid with
    | nil => intro s h _; exact ⟨fun a b => ⟨a, b⟩, fun a b => ⟨a, b⟩⟩
    | cons op mid ih =>
      intro s h hm
      have hop := hm op List.mem_cons_self
      have ih' := ih (step s op) h (fun o ho => hm o (List.mem_cons_of_mem _ ho))
      have fa : ∀ (m : List (Nat × Nat)) (k x : Nat), find m i = some h → find (m ++ [(k, x)]) i = some h := by
        intro m k x hf
        unfold find at hf ⊢
        rw [List.find?_append]
        cases hq : m.find? (fun e => e.1 == i) with
        | none => rw [hq] at hf; simp at hf
        | some e => rw [hq] at hf; simpa using hf
      have ci : ∀ (s : Handler) (d j : Nat), find s.images i = some h → find (s.createImage d j).2.images i = some h := by
        intro s d j hf
        unfold Handler.createImage
        split
        · exact hf
        · exact fa _ _ _ hf
      have cv : ∀ (s : Handler) (d j : Nat), (s.createImage d j).2.views = s.views := by
        intro s d j
        unfold Handler.createImage
        split <;> rfl
      have sc : ∀ (f : Nat → Cache) (d : Nat) (x : Cache), (i ∈ (f c).images → (d = c → i ∈ x.images) → i ∈ (setCache f d x c).images)
          ∧ (i ∈ (f c).views → (d = c → i ∈ x.views) → i ∈ (setCache f d x c).views) := by
        intro f d x
        unfold setCache
        by_cases hd : c = d
        · rw [if_pos hd]; exact ⟨fun _ hx => hx hd.symm, fun _ hx => hx hd.symm⟩
        · rw [if_neg hd]; exact ⟨fun hx _ => hx, fun hx _ => hx⟩
      refine ⟨fun hf hc => ?_, fun hf hc => ?_⟩
      · refine ih'.1 ?_ ?_
        · cases op with
          | createImage d j => exact ci _ _ _ hf
          | createView d v j =>
            show find (s.handler.createView d v j).2.images i = some h
            unfold Handler.createView
            split
            · exact hf
            · exact ci _ _ _ hf
          | destroyImage d j =>
            have hj : i ≠ j := fun e => hop.2.1 d (by rw [e])
            simp only [step]
            split
            · unfold Handler.destroyImage
              simp only
              split
              · simp only [find_erase_ne hj]; exact hf
              · exact hf
            · exact hf
          | destroyView d v =>
            simp only [step]
            split
            · unfold Handler.destroyView
              simp only
              split <;> exact hf
            · exact hf
          | close d => exact absurd rfl (hop.1 d)
        · cases op with
          | createImage d j =>
            simp only [step]
            split
            · exact (sc _ _ _).1 hc (fun e => mem_addKey.2 (.inr (e ▸ hc)))
            · exact hc
          | createView d v j =>
            simp only [step]
            split
            · exact (sc _ _ _).1 hc (fun e => e ▸ hc)
            · exact hc
          | destroyImage d j => simp only [step]; split <;> exact hc
          | destroyView d v => simp only [step]; split <;> exact hc
          | close d => exact absurd rfl (hop.1 d)
      · refine ih'.2 ?_ ?_
        · cases op with
          | createImage d j =>
            show find (s.handler.createImage d j).2.views i = some h
            rw [cv]; exact hf
          | createView d v j =>
            show find (s.handler.createView d v j).2.views i = some h
            unfold Handler.createView
            split
            · exact hf
            · simp only [cv]; exact fa _ _ _ hf
          | destroyImage d j =>
            simp only [step]
            split
            · unfold Handler.destroyImage
              simp only
              split <;> exact hf
            · exact hf
          | destroyView d v =>
            have hj : i ≠ v := fun e => hop.2.2 d (by rw [e])
            simp only [step]
            split
            · unfold Handler.destroyView
              simp only
              split
              · simp only [find_erase_ne hj]; exact hf
              · exact hf
            · exact hf
          | close d => exact absurd rfl (hop.1 d)
        · cases op with
          | createImage d j =>
            simp only [step]
            split
            · exact (sc _ _ _).2 hc (fun e => e ▸ hc)
            · exact hc
          | createView d v j =>
            simp only [step]
            split
            · exact (sc _ _ _).2 hc (fun e => mem_addKey.2 (.inr (e ▸ hc)))
            · exact hc
          | destroyImage d j => simp only [step]; split <;> exact hc
          | destroyView d v => simp only [step]; split <;> exact hc
          | close d => exact absurd rfl (hop.1 d)
  have fe : ∀ (m : List (Nat × Nat)), find (erase m i) i = none := by
    intro m
    rw [find_none]
    simp [mem_erase']
  have fl : ∀ (m : List (Nat × Nat)) (h : Nat), find m i = none → find (m ++ [(i, h)]) i = some h := by
    intro m h hf
    unfold find at hf ⊢
    simp only [Option.map_eq_none_iff] at hf
    simp [List.find?_append, hf]
  refine ⟨fun hn => ?_, fun j hn => ?_⟩
  · intro s'
    obtain ⟨k1, k2⟩ := (keep mid (step s (.createImage c i)) (imageHandle s c i) hmid).1
      (by simp only [step, imageHandle, Handler.createImage, hn]; exact fl _ _ hn)
      (by simp only [step, Handler.createImage, hn, if_true, setCache_self]; exact mem_addKey.2 (.inl rfl))
    have e : s' = run (step s (.createImage c i)) mid := rfl
    rw [← e] at k1 k2
    simp only [step, if_pos k2, Handler.destroyImage, k1]
    exact ⟨trivial, fe _⟩
  · intro s'
    have hv : ∀ (s : Handler), (s.createImage c j).2.views = s.views := by
      intro s
      unfold Handler.createImage
      split <;> rfl
    obtain ⟨k1, k2⟩ := (keep mid (step s (.createView c i j)) (viewHandle s c i j) hmid).2
      (by simp only [step, viewHandle, Handler.createView, hn, hv]; exact fl _ _ hn)
      (by simp only [step, Handler.createView, hn, if_true, setCache_self]; exact mem_addKey.2 (.inl rfl))
    have e : s' = run (step s (.createView c i j)) mid := rfl
    rw [← e] at k1 k2
    simp only [step, if_pos k2, Handler.destroyView, k1]
    exact ⟨trivial, fe _⟩

/-- The hypotheses of `explicit_destroy` are met: another view is destroyed and another image made in between. -/
example : ∀ op ∈ [Op.createView 0 7 5, .destroyView 0 7, .createImage 1 6, .destroyImage 1 6],
    (∀ d, op ≠ .close d) ∧ (∀ d, op ≠ .destroyImage d 5) ∧ ∀ d, op ≠ .destroyView d 5 := by simp

/-- C28: a request to destroy, through a cache, an id that was never requested through it (since it was last closed) does nothing. -/
theorem foreign_destroy_ignored (pre ops : List Op) (c i : Nat) (hpre : pre = [] ∨ ∃ p, pre = p ++ [.close c]) :
    ((∀ op ∈ ops, op ≠ .createImage c i) → step (run {} (pre ++ ops)) (.destroyImage c i) = run {} (pre ++ ops))
    ∧ ((∀ op ∈ ops, ∀ j, op ≠ .createView c i j) → step (run {} (pre ++ ops)) (.destroyView c i) = run {} (pre ++ ops)) := by
  have key : ∀ (ops : List Op) (s : State),
      ((∀ op ∈ ops, op ≠ .createImage c i) → i ∉ (s.caches c).images → i ∉ ((run s ops).caches c).images)
      ∧ ((∀ op ∈ ops, ∀ j, op ≠ .createView c i j) → i ∉ (s.caches c).views → i ∉ ((run s ops).caches c).views) := by
    intro ops
    induction ops with
    | nil => intro s; exact ⟨fun _ h => h, fun _ h => h⟩
    | cons op ops ih =>
      intro s
      refine ⟨fun ho hs => (ih (step s op)).1 (fun o h => ho o (List.mem_cons_of_mem _ h)) ?_,
        fun ho hs => (ih (step s op)).2 (fun o h => ho o (List.mem_cons_of_mem _ h)) ?_⟩
      · have hop := ho op List.mem_cons_self
        cases op with
        | createImage d j =>
          simp only [step]
          split
          · by_cases hd : c = d
            · subst hd
              rw [setCache_self]
              simp only [mem_addKey, not_or]
              exact ⟨fun e => hop (by rw [e]), hs⟩
            · rw [setCache_ne _ hd]; exact hs
          · exact hs
        | createView d v j =>
          simp only [step]
          split
          · by_cases hd : c = d
            · subst hd; rw [setCache_self]; exact hs
            · rw [setCache_ne _ hd]; exact hs
          · exact hs
        | destroyImage d j => simp only [step]; split <;> exact hs
        | destroyView d v => simp only [step]; split <;> exact hs
        | close d =>
          simp only [step]
          by_cases hd : c = d
          · subst hd; rw [setCache_self]; simp
          · rw [setCache_ne _ hd]; exact hs
      · have hop := ho op List.mem_cons_self
        cases op with
        | createImage d j =>
          simp only [step]
          split
          · by_cases hd : c = d
            · subst hd; rw [setCache_self]; exact hs
            · rw [setCache_ne _ hd]; exact hs
          · exact hs
        | createView d v j =>
          simp only [step]
          split
          · by_cases hd : c = d
            · subst hd
              rw [setCache_self]
              simp only [mem_addKey, not_or]
              exact ⟨fun e => hop j (by rw [e]), hs⟩
            · rw [setCache_ne _ hd]; exact hs
          · exact hs
        | destroyImage d j => simp only [step]; split <;> exact hs
        | destroyView d v => simp only [step]; split <;> exact hs
        | close d =>
          simp only [step]
          by_cases hd : c = d
          · subst hd; rw [setCache_self]; simp
          · rw [setCache_ne _ hd]; exact hs
  have h0 : (run {} pre).caches c = {} := by
    rcases hpre with rfl | ⟨p, rfl⟩
    · rfl
    · simp only [run, List.foldl_append, List.foldl_cons, List.foldl_nil, step, setCache_self]
  have e : run {} (pre ++ ops) = run (run {} pre) ops := by simp [run, List.foldl_append]
  rw [e]
  refine ⟨fun ho => ?_, fun ho => ?_⟩
  · have := (key ops (run {} pre)).1 ho (by rw [h0]; simp)
    simp only [step, if_neg this]
  · have := (key ops (run {} pre)).2 ho (by rw [h0]; simp)
    simp only [step, if_neg this]

/-! ## C29 -/

theorem quadKey_inj (t u v t' u' v' : Bool) : quadKey t u v = quadKey t' u' v' ↔ (t, u, v) = (t', u', v') := by
  revert t u v t' u' v'; decide

/-- C29: two requests for a quad vertex buffer, in any series of requests, return the same buffer iff they ask for the
same texture coordinates and inversions. -/
theorem quad_buffers_same_iff (as : List (Bool × Bool × Bool)) (m n : Nat) (a b : Bool × Bool × Bool)
    (ha : as[m]? = some a) (hb : as[n]? = some b) :
    (Keyed.run (fun k => quadKey k.1 k.2.1 k.2.2) {} as).1[m]? = (Keyed.run (fun k => quadKey k.1 k.2.1 k.2.2) {} as).1[n]?
      ↔ a = b := by
  rw [krun_same_iff as m n a b ha hb]
  obtain ⟨a1, a2, a3⟩ := a
  obtain ⟨b1, b2, b3⟩ := b
  exact quadKey_inj ..

/-- C29: whatever the hash, each sampler or vertex buffer handed out is destroyed exactly once with the cache, and
nothing else is. -/
theorem cached_destroyed_once {A : Type} (hash : A → Nat) (as : List A) :
    (Keyed.run hash {} as).2.destroyed.Nodup
      ∧ ∀ h, h ∈ (Keyed.run hash {} as).2.destroyed ↔ h ∈ (Keyed.run hash {} as).1 := by
  obtain ⟨hI, _⟩ := krun_inv as _ (kinit hash)
  refine ⟨hI.nodup, fun h => ?_⟩
  constructor
  · intro hh
    obtain ⟨e, he, rfl⟩ := List.mem_map.mp hh
    rcases krun_back as _ e he with h | h
    · simp at h
    · exact h
  · intro hh
    have hlen : ∀ (as : List A) (s : Keyed A), (Keyed.run hash s as).1.length = as.length := by
      intro as
      induction as with
      | nil => intro s; rfl
      | cons a as ih => intro s; simp [Keyed.run, ih]
    obtain ⟨n, hn, hg⟩ := List.getElem_of_mem hh
    rw [hlen] at hn
    obtain ⟨e, he, h1, _⟩ := krun_entry as _ (kinit hash) n as[n] (by simp [hn])
    refine List.mem_map.mpr ⟨e, he, ?_⟩
    rw [List.getElem?_eq_getElem (by rw [hlen]; exact hn)] at h1
    simp only [Option.some.injEq] at h1
    rw [← h1, hg]

/-- C29 is false of samplers: whatever 64-bit hash they are cached by, there are two different sampler descriptions,
differing only in their level-of-detail numbers, that get the same sampler. -/
theorem sampler_confused (hash : SamplerDesc → Fin (2 ^ 64)) (modes : Nat) :
    ∃ a b : SamplerDesc, a ≠ b ∧ a.modes = modes ∧ b.modes = modes
      ∧ (Keyed.run (fun d => (hash d).val) {} [a, b]).1 = [1, 1] := by
  have hcard : Fintype.card (Fin (2 ^ 64)) < Fintype.card (Fin (2 ^ 32) × Fin (2 ^ 32) × Fin (2 ^ 32)) := by
    simp only [Fintype.card_prod, Fintype.card_fin]
    decide
  obtain ⟨x, y, hne, he⟩ := Fintype.exists_ne_map_eq_of_card_lt
    (fun p : Fin (2 ^ 32) × Fin (2 ^ 32) × Fin (2 ^ 32) =>
      hash ⟨modes, BitVec.ofFin p.1, BitVec.ofFin p.2.1, BitVec.ofFin p.2.2⟩) hcard
  refine ⟨⟨modes, BitVec.ofFin x.1, BitVec.ofFin x.2.1, BitVec.ofFin x.2.2⟩,
    ⟨modes, BitVec.ofFin y.1, BitVec.ofFin y.2.1, BitVec.ofFin y.2.2⟩, ?_, rfl, rfl, ?_⟩
  · intro h
    apply hne
    simp only [SamplerDesc.mk.injEq, BitVec.ofFin.injEq, true_and] at h
    exact Prod.ext h.1 (Prod.ext h.2.1 h.2.2)
  · simp [Keyed.run, Keyed.get, he]

/-- C29 (partial): requests for equal sampler descriptions return the same sampler, and requests whose hashes differ
get different ones. -/
theorem sampler_same_partial (hash : SamplerDesc → Nat) (as : List SamplerDesc) (m n : Nat) (a b : SamplerDesc)
    (ha : as[m]? = some a) (hb : as[n]? = some b) :
    (a = b → (Keyed.run hash {} as).1[m]? = (Keyed.run hash {} as).1[n]?)
      ∧ (hash a ≠ hash b → (Keyed.run hash {} as).1[m]? ≠ (Keyed.run hash {} as).1[n]?) := by
  have h := krun_same_iff (hash := hash) as m n a b ha hb
  exact ⟨fun e => h.mpr (e ▸ rfl), fun hn e => hn (h.mp e)⟩

example : (Keyed.run (fun k : Bool × Bool × Bool => quadKey k.1 k.2.1 k.2.2) {}
    [(true, false, false), (true, true, false), (true, false, false), (false, true, true)]).1 = [1, 2, 1, 3] := by decide

/-! ## C52 -/

/-- C52: without inversion, the texture coordinates of the visible part of the quad (`-1 ≤ x, y ≤ 1`) run from 0 to 1
in both directions (values times 4). -/
theorem quad_texcoords_plain (a b c : Vertex) (hq : quadVertices false false = [a, b, c]) (x y ru rv : Int)
    (hu : Affine a b c (·.u) x y ru) (hv : Affine a b c (·.v) x y rv) :
    ru = 2 * (x + 1) ∧ rv = 2 * (y + 1) := by
  simp only [quadVertices, List.cons.injEq, and_true] at hq
  obtain ⟨rfl, rfl, rfl⟩ := hq
  have := hu.eq
  have := hv.eq
  simp at *
  omega

/-- C52 is false with inversions: the inverted coordinate runs from 2 down to 1 (`u`), from 0 down to -1 (`v`), instead
of from 1 down to 0: it is off by a whole image. -/
theorem quad_texcoords_inverted (iu iv : Bool) (a b c : Vertex) (hq : quadVertices iu iv = [a, b, c]) (x y ru rv : Int)
    (hu : Affine a b c (·.u) x y ru) (hv : Affine a b c (·.v) x y rv) :
    ru = (if iu then (4 - 2 * (x + 1)) + 4 else 2 * (x + 1)) ∧ rv = (if iv then (4 - 2 * (y + 1)) - 4 else 2 * (y + 1)) := by
  have h1 := hu.eq
  have h2 := hv.eq
  cases iu <;> cases iv <;> simp only [quadVertices, List.cons.injEq, and_true] at hq <;>
    obtain ⟨rfl, rfl, rfl⟩ := hq <;> simp at * <;> omega

end Verif.Res
