import Verif.Props.ThreadsDriver
/-!
C84: the objects of the driver when threads share a handler. For every schedule an object is destroyed only while it exists, and when no call is
being made, the objects that exist are those the handler has.
-/
namespace Verif.Thr

open Verif.Res (find erase tryEmplace)

theorem created_append (m : Mutex) (h : Nat) (a b : List Event) : created m h (a ++ b) = created m h a + created m h b := by
  simp [created, List.countP_append]

theorem destroyed_append (m : Mutex) (h : Nat) (a b : List Event) : destroyed m h (a ++ b) = destroyed m h a + destroyed m h b := by
  simp [destroyed, List.countP_append]

theorem created_kind (m : Mutex) (h : Nat) (l : List Event) : created m h (ofKind m l) = created m h l := by
  unfold created ofKind
  rw [List.countP_filter]
  congr 1
  funext e
  cases e with
  | create k x i => by_cases hk : k = m <;> simp [Event.kind, hk]
  | destroy k x => rfl

theorem destroyed_kind (m : Mutex) (h : Nat) (l : List Event) : destroyed m h (ofKind m l) = destroyed m h l := by
  unfold destroyed ofKind
  rw [List.countP_filter]
  congr 1
  funext e
  cases e with
  | destroy k x => by_cases hk : k = m <;> simp [Event.kind, hk]
  | create k x i => rfl

/-- Only objects that exist are destroyed. -/
def Sound (m : Mutex) (l : List Event) : Prop := ∀ a b h, l = a ++ .destroy m h :: b → destroyed m h a < created m h a

/-- New objects get other handles than the existing ones. -/
def Fresh (m : Mutex) (l : List Event) : Prop := ∀ a b h i, l = a ++ .create m h i :: b → created m h a = destroyed m h a

/-- No key twice, no handle twice. -/
structure Keys (s : Seq) : Prop where
  images : (s.images.map (·.1)).Nodup
  views : (s.views.map (·.1)).Nodup
  samplers : s.samplers.Nodup
  buffers : s.buffers.Nodup

theorem count_erase {l : List (Nat × Nat)} {i x : Nat} (hk : (l.map (·.1)).Nodup) (hf : find l i = some x) (h : Nat) :
    (l.map (·.2)).count h = ((erase l i).map (·.2)).count h + if x = h then 1 else 0 := by
  induction l with
  | nil => simp [find] at hf
  | cons e l ih =>
    obtain ⟨k, y⟩ := e
    simp only [List.map_cons, List.nodup_cons] at hk
    by_cases hki : k = i
    · subst hki
      have hx : y = x := by simpa [find] using hf
      subst hx
      have : erase ((k, y) :: l) k = l := by
        have hall : ∀ e ∈ l, e.1 ≠ k := fun e he c => hk.1 (List.mem_map.2 ⟨e, he, c⟩)
        simp only [erase, List.filter_cons]
        simp only [ne_eq, bne_self_eq_false, Bool.false_eq_true, if_false, not_true_eq_false, decide_false]
        exact List.filter_eq_self.2 (fun e he => by simp [hall e he])
      rw [this]
      simp only [List.map_cons, List.count_cons, beq_iff_eq]
    · have hf' : find l i = some x := by simpa [find, hki] using hf
      have := ih hk.2 hf'
      have e : erase ((k, y) :: l) i = (k, y) :: erase l i := by simp [erase, hki]
      rw [e]
      simp only [List.map_cons, List.count_cons, this]
      omega

def Bal (m : Mutex) (s : Seq) (l : List Event) : Prop := ∀ h, destroyed m h l + (s.handles m).count h ≤ created m h l
def Exact (m : Mutex) (s : Seq) (l : List Event) : Prop := ∀ h, created m h l = destroyed m h l + (s.handles m).count h

theorem Fresh.of_append {m : Mutex} {a b : List Event} (h : Fresh m (a ++ b)) : Fresh m a :=
  fun x y k i e => h x (y ++ b) k i (by rw [e]; simp)

/-- What a part of a call does to the balance. -/
structure Ok (m : Mutex) (s : Seq) (l : List Event) (s' : Seq) (l' : List Event) : Prop where
  keys : Keys s → Keys s'
  bal : Keys s → Bal m s l → Bal m s' l'
  sound : Keys s → Bal m s l → Sound m l → Sound m l'
  fresh : Fresh m l' → Fresh m l
  exact_ : Keys s → Fresh m l' → Exact m s l → Exact m s' l'

theorem Ok.refl (m : Mutex) (s : Seq) (l : List Event) : Ok m s l s l := ⟨_root_.id, fun _ => _root_.id, fun _ _ => _root_.id, _root_.id, fun _ _ => _root_.id⟩

theorem Ok.trans {m : Mutex} {s s' s'' : Seq} {l l' l'' : List Event} (a : Ok m s l s' l') (b : Ok m s' l' s'' l'') : Ok m s l s'' l'' where
  keys := fun k => b.keys (a.keys k)
  bal := fun k h => b.bal (a.keys k) (a.bal k h)
  sound := fun k h h' => b.sound (a.keys k) (a.bal k h) (a.sound k h h')
  fresh := fun h => a.fresh (b.fresh h)
  exact_ := fun k f h => b.exact_ (a.keys k) f (a.exact_ k (b.fresh f) h)

/-- Containers of handles as before. -/
theorem Ok.same {m : Mutex} {s s' : Seq} (hh : s'.handles m = s.handles m) (hk : Keys s → Keys s') (l : List Event) : Ok m s l s' l where
  keys := hk
  bal := fun _ h x => by rw [hh]; exact h x
  sound := fun _ _ h => h
  fresh := fun h => h
  exact_ := fun _ _ h x => by rw [hh]; exact h x

theorem sound_snoc {m : Mutex} {l : List Event} {e : Event} (h : Sound m l) (he : ∀ x, e = .destroy m x → destroyed m x l < created m x l) :
    Sound m (l ++ [e]) := by
  intro a b x hab
  rcases List.append_eq_append_iff.1 hab with ⟨w, f1, f2⟩ | ⟨w, f1, f2⟩
  · cases w with
    | nil => simp at f1 f2; rw [f1]; exact he x f2.1
    | cons y w => simp at f2
  · cases w with
    | nil => simp at f1 f2; rw [← f1]; exact he x f2.1.symm
    | cons y w => simp at f2; obtain ⟨rfl, f2⟩ := f2; exact h a w x f1

theorem ok_create (m k : Mutex) (x : Nat) (i : Option Nat) {s s' : Seq} (l : List Event) (ho : ∀ n, n ≠ k → s'.handles n = s.handles n)
    (hk : s'.handles k = s.handles k ++ [x] ∨ x ∈ s.handles k ∧ s'.handles k = s.handles k) (keys : Keys s → Keys s') :
    Ok m s l s' (l ++ [.create k x i]) := by
  have hd : ∀ h, destroyed m h (l ++ [.create k x i]) = destroyed m h l := fun h => by rw [destroyed_append]; simp [destroyed]
  have hc : ∀ h, created m h (l ++ [.create k x i]) = created m h l + if k = m ∧ x = h then 1 else 0 := fun h => by
    rw [created_append]; simp only [created, List.countP_singleton]; by_cases e : k = m ∧ x = h <;> simp [e]
  refine ⟨keys, fun _ hb h => ?_, fun _ _ hs => sound_snoc hs (by simp), Fresh.of_append, fun _ hf he h => ?_⟩
  · rw [hd, hc]
    have := hb h
    by_cases hkm : m = k
    · subst hkm
      rcases hk with e | ⟨_, e⟩ <;> rw [e]
      · rw [List.count_append, List.count_singleton]
        by_cases hx : x = h <;> simp [hx] <;> omega
      · omega
    · rw [ho m hkm]; omega
  · rw [hd, hc]
    have := he h
    by_cases hkm : m = k
    · subst hkm
      rcases hk with e | ⟨e', e⟩ <;> rw [e]
      · rw [List.count_append, List.count_singleton]
        by_cases hx : x = h <;> simp [hx] <;> omega
      · exfalso
        have h1 := hf l [] x i rfl
        have h2 := he x
        have := List.count_pos_iff.2 e'
        omega
    · rw [ho m hkm, if_neg (fun e => hkm e.1.symm)]; omega

theorem ok_destroy (m k : Mutex) (x : Nat) {s s' : Seq} (l : List Event) (ho : ∀ n, n ≠ k → s'.handles n = s.handles n)
    (hk : Keys s → ∀ h, (s.handles k).count h = (s'.handles k).count h + if x = h then 1 else 0) (keys : Keys s → Keys s') :
    Ok m s l s' (l ++ [.destroy k x]) := by
  have hc : ∀ h, created m h (l ++ [.destroy k x]) = created m h l := fun h => by rw [created_append]; simp [created]
  have hd : ∀ h, destroyed m h (l ++ [.destroy k x]) = destroyed m h l + if k = m ∧ x = h then 1 else 0 := fun h => by
    rw [destroyed_append]; simp only [destroyed, List.countP_singleton]; by_cases e : k = m ∧ x = h <;> simp [e]
  refine ⟨keys, fun K hb h => ?_, fun K hb hs => sound_snoc hs (fun y e => ?_), Fresh.of_append, fun K hf he h => ?_⟩
  · rw [hd, hc]
    have := hb h
    by_cases hkm : m = k
    · subst hkm; have := hk K h; by_cases hx : x = h <;> simp [hx] at this ⊢ <;> omega
    · rw [ho m hkm, if_neg (fun e => hkm e.1.symm)]; omega
  · obtain ⟨rfl, rfl⟩ := Event.destroy.inj e
    have h1 := hb x
    have h2 := hk K x
    simp at h2
    omega
  · rw [hd, hc]
    have := he h
    by_cases hkm : m = k
    · subst hkm; have := hk K h; by_cases hx : x = h <;> simp [hx] at this ⊢ <;> omega
    · rw [ho m hkm, if_neg (fun e => hkm e.1.symm)]; omega

theorem nodup_snoc {l : List Nat} {x : Nat} (h : l.Nodup) (hx : x ∉ l) : (l ++ [x]).Nodup := by
  rw [List.nodup_append]
  exact ⟨h, by simp, fun a ha b hb e => hx (by simp at hb; rw [← hb, ← e]; exact ha)⟩

theorem find_none_key {l : List (Nat × Nat)} {i : Nat} (h : find l i = none) : i ∉ l.map (·.1) := by
  intro c
  obtain ⟨e, he, hi⟩ := List.mem_map.1 c
  exact (find_none_iff l i).1 h e he hi

theorem erase_keys {l : List (Nat × Nat)} (i : Nat) (h : (l.map (·.1)).Nodup) : ((erase l i).map (·.1)).Nodup :=
  h.sublist (List.Sublist.map _ List.filter_sublist)

theorem count_filter_ne {l : List Nat} {x : Nat} (hn : l.Nodup) (hx : x ∈ l) (h : Nat) :
    l.count h = (l.filter (· ≠ x)).count h + if x = h then 1 else 0 := by
  by_cases e : x = h
  · subst e
    have h1 : (l.filter (· ≠ x)).count x = 0 := List.count_eq_zero.2 (by simp)
    have h2 : l.count x = 1 := by rw [List.Nodup.count hn]; simp [hx]
    rw [h1, h2]; simp
  · rw [if_neg e, List.count_filter (by simp [Ne.symm e])]; simp

theorem ok_image (m : Mutex) (s : Seq) (l : List Event) (i h : Nat) : Ok m s l (s.image i h).2 (l ++ s.imageEvents i h) := by
  unfold Seq.image Seq.imageEvents
  cases hf : find s.images i with
  | some x => simp; exact .refl ..
  | none =>
    refine ok_create m .images h none l (fun n hn => ?_) (.inl (by simp [Seq.handles])) (fun K => ?_)
    · cases n <;> first | rfl | exact absurd rfl hn
    · exact ⟨by simp only [List.map_append]; exact nodup_snoc K.images (find_none_key hf), K.views, K.samplers, K.buffers⟩

theorem ok_call (m : Mutex) (s : Seq) (l : List Event) (x : Call) : Ok m s l (s.call x).2 (l ++ s.events x) := by
  cases x with
  | imageId d =>
    simp only [Seq.events, List.append_nil]
    refine Ok.same (s := s) (s' := (s.call (.imageId d)).2) ?_ (fun (K : Keys s) => ⟨K.images, K.views, K.samplers, K.buffers⟩) l
    cases m <;> rfl
  | viewId d =>
    simp only [Seq.events, List.append_nil]
    refine Ok.same (s := s) (s' := (s.call (.viewId d)).2) ?_ (fun (K : Keys s) => ⟨K.images, K.views, K.samplers, K.buffers⟩) l
    cases m <;> rfl
  | createImage i h => exact ok_image m s l i h
  | createView v i h h' =>
    simp only [Seq.call, Seq.events]
    cases hf : find s.views v with
    | some x => simp; exact .refl ..
    | none =>
      simp only []
      rw [← List.append_assoc]
      have hv := image_views s i h
      refine (ok_image m s l i h).trans (ok_create m .views h' _ _ (fun n hn => ?_) (.inl (by simp [Seq.handles, hv])) (fun K => ?_))
      · cases n <;> first | rfl | exact absurd rfl hn
      · refine ⟨K.images, ?_, K.samplers, K.buffers⟩
        have := K.views
        rw [hv] at this
        simp only [List.map_append]; exact nodup_snoc this (find_none_key hf)
  | createSampler h =>
    refine ok_create m .samplers h none l (fun n hn => ?_) ?_ (fun K => ?_)
    · cases n <;> first | rfl | exact absurd rfl hn
    · by_cases hm : h ∈ s.samplers <;> simp [Seq.call, Seq.handles, hm]
    · refine ⟨K.images, K.views, ?_, K.buffers⟩
      simp only [Seq.call]
      split
      · exact K.samplers
      · exact nodup_snoc K.samplers (by assumption)
  | createBuffer h =>
    refine ok_create m .buffers h none l (fun n hn => ?_) ?_ (fun K => ?_)
    · cases n <;> first | rfl | exact absurd rfl hn
    · by_cases hm : h ∈ s.buffers <;> simp [Seq.call, Seq.handles, hm]
    · refine ⟨K.images, K.views, K.samplers, ?_⟩
      simp only [Seq.call]
      split
      · exact K.buffers
      · exact nodup_snoc K.buffers (by assumption)
  | destroyImage i =>
    simp only [Seq.call, Seq.events]
    cases hf : find s.images i with
    | none => simp; exact .refl ..
    | some x =>
      refine ok_destroy m .images x l (fun n hn => ?_) (fun K h => count_erase K.images hf h) (fun K => ⟨erase_keys i K.images, K.views, K.samplers, K.buffers⟩)
      cases n <;> first | rfl | exact absurd rfl hn
  | destroyView i =>
    simp only [Seq.call, Seq.events]
    cases hf : find s.views i with
    | none => simp; exact .refl ..
    | some x =>
      refine ok_destroy m .views x l (fun n hn => ?_) (fun K h => count_erase K.views hf h) (fun K => ⟨K.images, erase_keys i K.views, K.samplers, K.buffers⟩)
      cases n <;> first | rfl | exact absurd rfl hn
  | destroySampler h =>
    simp only [Seq.call, Seq.events]
    by_cases hm : h ∈ s.samplers
    · simp only [if_pos hm]
      refine ok_destroy m .samplers h l (fun n hn => ?_) (fun K y => count_filter_ne K.samplers hm y)
        (fun K => ⟨K.images, K.views, K.samplers.sublist List.filter_sublist, K.buffers⟩)
      cases n <;> first | rfl | exact absurd rfl hn
    · simp [if_neg hm]; exact .refl ..
  | destroyBuffer h =>
    simp only [Seq.call, Seq.events]
    by_cases hm : h ∈ s.buffers
    · simp only [if_pos hm]
      refine ok_destroy m .buffers h l (fun n hn => ?_) (fun K y => count_filter_ne K.buffers hm y)
        (fun K => ⟨K.images, K.views, K.samplers, K.buffers.sublist List.filter_sublist⟩)
      cases n <;> first | rfl | exact absurd rfl hn
    · simp [if_neg hm]; exact .refl ..

theorem ok_order (m : Mutex) {s s' : Seq} {o : List (Nat × Call × Res)} (l : List Event) (h : Explains s o s') : Ok m s l s' (l ++ eventsOf s o) := by
  induction o generalizing s l with
  | nil => cases h; simp [eventsOf]; exact .refl ..
  | cons y o ih =>
    obtain ⟨t, x, r⟩ := y
    simp only [eventsOf, ← List.append_assoc]
    exact (ok_call m s l x).trans (ih _ h.2)

theorem keys_empty : Keys {} := ⟨by simp, by simp, by simp, by simp⟩

/-- A moment between calls, seen by kind. -/
theorem filter_split {α : Type} (p : α → Bool) {l a b : List α} {x : α} (h : l.filter p = a ++ x :: b) :
    ∃ a' b', l = a' ++ x :: b' ∧ a'.filter p = a := by
  obtain ⟨u, v, rfl, h1, h2⟩ := List.filter_eq_append_iff.1 h
  obtain ⟨u', v', rfl, h3, h4, h5⟩ := List.filter_eq_cons_iff.1 h2
  refine ⟨u ++ u', v', by simp, ?_⟩
  rw [List.filter_append, h1, List.filter_eq_nil_iff.2 h3]; simp

theorem sound_kind {m : Mutex} {l : List Event} : Sound m (ofKind m l) ↔ Sound m l := by
  constructor
  · intro h a b x e
    have := h (ofKind m a) (ofKind m b) x (by rw [e]; simp [ofKind, Event.kind])
    rwa [created_kind, destroyed_kind] at this
  · intro h a b x e
    obtain ⟨a', b', e1, e2⟩ := filter_split _ e
    have := h a' b' x e1
    rw [← e2]
    show destroyed m x (ofKind m a') < created m x (ofKind m a')
    rwa [created_kind, destroyed_kind]

theorem fresh_kind {m : Mutex} {l : List Event} (h : Fresh m l) : Fresh m (ofKind m l) := by
  intro a b x i e
  obtain ⟨a', b', e1, e2⟩ := filter_split _ e
  have := h a' b' x i e1
  rw [← e2]
  show created m x (ofKind m a') = destroyed m x (ofKind m a')
  rwa [created_kind, destroyed_kind]

theorem fresh_of_kind {m : Mutex} {l : List Event} (h : Fresh m (ofKind m l)) : Fresh m l := by
  intro a b x i e
  have := h (ofKind m a) (ofKind m b) x i (by rw [e]; simp [ofKind, Event.kind])
  rwa [created_kind, destroyed_kind] at this

theorem free_of_idle {c : Config} {o : List (Nat × Call × Res)} {A : XMem} (I : Inv c o A) (h : ∀ t, (c.threads t).cur = none) (m : Mutex) :
    c.owner m = none := by
  cases ho : c.owner m with
  | none => rfl
  | some t => exact absurd ho ((I.idle t (h t)).1 m)

/-- C84: when no call is being made, the objects the driver made and didn't destroy are those the handler has. -/
theorem live_objects (calls : Nat → List Call) (ts : List Nat) (hq : ∀ t, ((runSchedule (Config.init calls) ts).threads t).cur = none)
    (hf : FreshHandles (runSchedule (Config.init calls) ts).trace) (m : Mutex) (h : Nat) :
    created m h (runSchedule (Config.init calls) ts).trace = destroyed m h (runSchedule (Config.init calls) ts).trace +
      ((seqOf (runSchedule (Config.init calls) ts).mem).handles m).count h := by
  obtain ⟨o, A, _, I⟩ := run_inv ts (inv_init calls)
  have L := linearizes_of_inv I
  generalize runSchedule (Config.init calls) ts = c at *
  obtain ⟨s, hex, hs⟩ := L.explains
  have hd := L.driver m (free_of_idle I hq m)
  have K := ok_order m [] hex
  simp only [List.nil_append] at K
  have hfr : Fresh m (eventsOf {} o) := fresh_of_kind (hd ▸ fresh_kind (fun a b x i e => hf a b m x i e))
  have := K.exact_ keys_empty hfr (fun x => by cases m <;> simp [created, destroyed, Seq.handles]) h
  rw [← created_kind, ← destroyed_kind, ← hd, created_kind, destroyed_kind, hs hq] at this
  exact this

theorem trace_grows {c c' : Config} {us : List Nat} (h : steps c us = some c') : c.trace <+: c'.trace := by
  induction us generalizing c with
  | nil => cases h; exact List.prefix_rfl
  | cons t us ih =>
    simp only [steps] at h
    cases hs : step c t with
    | none => rw [hs] at h; cases h
    | some c1 =>
      rw [hs] at h
      refine List.IsPrefix.trans ?_ (ih h)
      unfold step at hs
      cases hc : (c.threads t).cur with
      | none =>
        simp only [hc] at hs
        split at hs
        · cases hs
        · injection hs with hs; subst hs; exact List.prefix_rfl
      | some y =>
        obtain ⟨x, p⟩ := y
        simp only [hc] at hs
        cases p <;> simp only at hs <;> (try split at hs) <;> first
          | (injection hs with hs; subst hs; first | exact List.prefix_rfl | exact List.prefix_append _ _)
          | cases hs

/-- The steps of a schedule that are made. -/
theorem run_steps (c : Config) (ts : List Nat) : ∃ us, steps c us = some (runSchedule c ts) := by
  induction ts generalizing c with
  | nil => exact ⟨[], rfl⟩
  | cons t ts ih =>
    cases hs : step c t with
    | none =>
      obtain ⟨us, h⟩ := ih c
      exact ⟨us, by simpa [runSchedule, hs] using h⟩
    | some c' =>
      obtain ⟨us, h⟩ := ih c'
      exact ⟨t :: us, by simpa [runSchedule, steps, hs] using h⟩

/-- C84: at every moment, an object that was destroyed existed: it was made more often than destroyed before. -/
theorem destroyed_live (calls : Nat → List Call) (N : Nat) (hN : ∀ t, N ≤ t → calls t = []) (ts : List Nat) {m : Mutex} {h : Nat} {a b : List Event}
    (ht : (runSchedule (Config.init calls) ts).trace = a ++ .destroy m h :: b) : destroyed m h a < created m h a := by
  obtain ⟨us, hus⟩ := run_steps (Config.init calls) ts
  obtain ⟨_, _, vs, c', hvs, hfin⟩ := finishes calls N hN hus
  obtain ⟨w, hw⟩ := trace_grows hvs
  have hrun := steps_run (steps_append hus hvs)
  obtain ⟨o, A, _, I⟩ := run_inv (us ++ vs) (inv_init calls)
  rw [hrun] at I
  have L := linearizes_of_inv I
  obtain ⟨s, hex, _⟩ := L.explains
  have hd := L.driver m (free_of_idle I (fun t => (hfin t).1) m)
  have K := ok_order m [] hex
  simp only [List.nil_append] at K
  have S : Sound m (eventsOf {} o) := K.sound keys_empty (fun x => by cases m <;> simp [destroyed, created, Seq.handles]) (fun a b x e => by simp at e)
  rw [← sound_kind, ← hd, sound_kind] at S
  exact S a (b ++ w) h (by rw [← hw, ht]; simp)

theorem destroyed_le (m : Mutex) (h : Nat) (l : List Event) :
  (∀ a b, l = a ++ .destroy m h :: b → destroyed m h a < created m h a) → destroyed m h l ≤ created m h l := by
  induction hn : l.length generalizing l with
  | zero => intro _; rw [List.length_eq_zero_iff.1 hn]; simp [destroyed]
  | succ n ih =>
    intro H
    obtain ⟨l', e, rfl⟩ : ∃ l' e, l = l' ++ [e] := by
      rcases List.eq_nil_or_concat l with h0 | ⟨l', e, h0⟩
      · rw [h0] at hn; cases hn
      · exact ⟨l', e, by rw [h0, List.concat_eq_append]⟩
    have h1 := ih l' (by simpa using hn) (fun a b e' => H a (b ++ [e]) (by rw [e']; simp))
    rw [created_append, destroyed_append]
    by_cases he : e = .destroy m h
    · subst he
      have := H l' [] rfl
      have e1 : destroyed m h [.destroy m h] = 1 := by simp [destroyed]
      omega
    · have : destroyed m h [e] = 0 := by
        cases e with
        | create k x i => simp [destroyed]
        | destroy k x =>
          simp only [destroyed, List.countP_singleton]
          rw [if_neg]
          intro c
          simp only [decide_eq_true_eq] at c
          exact he (by rw [c.1, c.2])
      omega

/-- C84: if the driver never gives a handle twice, it gives none that an existing object has. -/
theorem fresh_of_distinct (calls : Nat → List Call) (N : Nat) (hN : ∀ t, N ≤ t → calls t = []) (ts : List Nat)
    (hd : ∀ m h, created m h (runSchedule (Config.init calls) ts).trace ≤ 1) : FreshHandles (runSchedule (Config.init calls) ts).trace := by
  intro a b m h i e
  have h1 := hd m h
  rw [e, created_append] at h1
  have h2 : 1 ≤ created m h (.create m h i :: b) := by simp [created]
  have h3 := destroyed_le m h a (fun x y e' => destroyed_live calls N hN ts (b := y ++ .create m h i :: b) (by rw [e, e']; simp))
  omega

/-- C84: if the driver never gives a handle twice, no object is destroyed twice. -/
theorem destroyed_at_most_once (calls : Nat → List Call) (N : Nat) (hN : ∀ t, N ≤ t → calls t = []) (ts : List Nat) (m : Mutex) (h : Nat)
    (hd : created m h (runSchedule (Config.init calls) ts).trace ≤ 1) : destroyed m h (runSchedule (Config.init calls) ts).trace ≤ 1 := by
  exact Nat.le_trans (destroyed_le m h _ (fun a b e => destroyed_live calls N hN ts e)) hd

/-- The premises are met: two threads, a sampler, images and a view; handles differ. -/
def busy : Nat → List Call
  | 0 => [.createView 7 1 10 20, .createSampler 5, .destroyView 7, .destroySampler 5]
  | 1 => [.createImage 1 11, .createSampler 6, .destroyImage 1, .createImage 1 12]
  | _ => []

/-- All four kinds at work; an image, made again after its destruction, and a sampler are left. -/
example : let c := runSchedule (Config.init busy) ((List.range 200).map (· % 2))
    c.trace = [.create .images 11 none, .create .views 20 (some 11), .create .samplers 6 none, .create .samplers 5 none, .destroy .images 11,
      .destroy .views 20, .create .images 12 none, .destroy .samplers 5] ∧
      (c.threads 0).cur.isNone = true ∧ (c.threads 1).cur.isNone = true ∧ (seqOf c.mem).images = [(1, 12)] ∧ (seqOf c.mem).samplers = [6] := by
  decide +kernel

/-- No handle twice in it. -/
example (m : Mutex) (h : Nat) : created m h [.create .images 11 none, .create .views 20 (some 11), .create .samplers 6 none, .create .samplers 5 none,
    .destroy .images 11, .destroy .views 20, .create .images 12 none, .destroy .samplers 5] ≤ 1 := by
  cases m <;> simp [created, List.countP_cons] <;> (repeat' split) <;> omega

end Verif.Thr
