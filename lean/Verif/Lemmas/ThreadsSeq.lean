import Verif.Lemmas.Threads
/-! What a call does on its own, in terms of the containers; conservation of calls; progress. -/
namespace Verif.Thr

open Verif.Res (find erase tryEmplace)

/-! ## Calls one after the other -/

theorem seqOf_images (M : Mem) (x : Images) :
    seqOf (setComp M .images x) = { seqOf M with ids := ⟨x.ids, (seqOf M).ids.views⟩, images := x.made } := rfl
theorem seqOf_views (M : Mem) (x : Views) :
    seqOf (setComp M .views x) = { seqOf M with ids := ⟨(seqOf M).ids.images, x.ids⟩, views := x.made } := rfl
theorem seqOf_samplers (M : Mem) (x : List Nat) : seqOf (setComp M .samplers x) = { seqOf M with samplers := x } := rfl
theorem seqOf_buffers (M : Mem) (x : List Nat) : seqOf (setComp M .buffers x) = { seqOf M with buffers := x } := rfl

theorem find_none_iff (l : List (Nat × Nat)) (i : Nat) : find l i = none ↔ ∀ e ∈ l, e.1 ≠ i := by
  simp [find]

theorem tryEmplace_there {l : List (Nat × Nat)} {i x : Nat} (h : find l i = some x) : tryEmplace l i 0 = l := by
  unfold tryEmplace
  rw [if_pos]
  cases he : l.find? (fun e => e.1 == i) with
  | none => simp [find, he] at h
  | some e =>
    have h1 := List.mem_of_find?_eq_some he
    have h2 := List.find?_some he
    exact List.any_eq_true.2 ⟨e, h1, h2⟩

theorem setEntry_emplaced {l : List (Nat × Nat)} {i : Nat} (h : find l i = none) (x : Nat) :
    setEntry (tryEmplace l i 0) i x = l ++ [(i, x)] := by
  have h' := (find_none_iff l i).1 h
  have : ¬ (l.any (fun e => e.1 == i) = true) := by
    intro c; obtain ⟨e, he, hi⟩ := List.any_eq_true.1 c
    exact h' e he (by simpa using hi)
  unfold tryEmplace setEntry
  rw [if_neg this, List.map_append]
  have hm : l.map (fun e => if e.1 = i then (i, x) else e) = l :=
    (List.map_congr_left (g := _root_.id) (fun e he => by simp [h' e he])).trans (by simp)
  rw [hm]; simp

/-- The containers. -/
def cont (M : XMem) : Mem := fun m => (M m).1

theorem cont_set (M : XMem) (m : Mutex) (y : Comp m) (l : List Event) : cont (setX M m (y, l)) = setComp (cont M) m y := by
  funext n
  by_cases h : n = m
  · subst h; simp [cont, setX_same, setComp_same]
  · simp [cont, setX_other _ _ h, setComp_other _ _ h]

/-- Calls of the driver added. -/
def addLog (M : XMem) (l : List Event) : XMem := fun m => ((M m).1, (M m).2 ++ ofKind m l)

theorem addLog_nil (M : XMem) : addLog M [] = M := by funext m; simp [addLog, ofKind]
theorem addLog_cont (M : XMem) (l : List Event) : cont (addLog M l) = cont M := rfl
theorem addLog_append (M : XMem) (a b : List Event) : addLog (addLog M a) b = addLog M (a ++ b) := by
  funext m; simp [addLog, ofKind]

/-- Containers replaced. -/
def withCont (M : XMem) (C : Mem) : XMem := fun m => (C m, (M m).2)

theorem access_eq (M : XMem) (m : Mutex) (y : Comp m) : setX M m (y, (M m).2) = withCont M (setComp (cont M) m y) := by
  funext n
  by_cases h : n = m
  · subst h; simp [withCont, setX_same, setComp_same]
  · simp [withCont, setX_other _ _ h, setComp_other _ _ h, cont]

theorem driver_eq (M : XMem) (e : Event) : setX M e.kind ((M e.kind).1, (M e.kind).2 ++ [e]) = addLog M [e] := by
  funext n
  by_cases h : n = e.kind
  · subst h; simp [addLog, setX_same, ofKind]
  · simp [addLog, setX_other _ _ h, ofKind, Ne.symm h]

theorem with_with (M : XMem) (C D : Mem) : withCont (withCont M C) D = withCont M D := rfl
theorem with_cont (M : XMem) (C : Mem) : cont (withCont M C) = C := rfl
theorem with_add (M : XMem) (C : Mem) (l : List Event) : addLog (withCont M C) l = withCont (addLog M l) C := rfl
theorem with_same (M : XMem) : withCont M (cont M) = M := rfl

/-- A program on its own, containers and calls of the driver apart. -/
def exec' : Prog → Mem → Res × Mem × List Event
  | .ret r, C => (r, C, [])
  | .lock _ k, C => exec' k C
  | .unlock _ k, C => exec' k C
  | .access m f k, C => exec' (k (C m)) (setComp C m (f (C m)))
  | .driver e k, C => ((exec' k C).1, (exec' k C).2.1, e :: (exec' k C).2.2)

theorem exec_eq (p : Prog) (M : XMem) :
    exec p M = ((exec' p (cont M)).1, withCont (addLog M (exec' p (cont M)).2.2) (exec' p (cont M)).2.1) := by
  induction p generalizing M with
  | ret r => simp only [exec, exec', addLog_nil]; rfl
  | lock m k ih => exact ih M
  | unlock m k ih => exact ih M
  | access m f k ih =>
    simp only [exec, exec']
    rw [access_eq, ih]
    rfl
  | driver e k ih =>
    simp only [exec, exec']
    rw [driver_eq, ih, addLog_append]
    rfl

theorem exec_image (i h : Nat) (k : Res → Prog) (M : Mem) :
    ∃ M', seqOf M' = (Seq.image (seqOf M) i h).2 ∧ (∀ m, m ≠ .images → M' m = M m) ∧
      exec' (imageProg i h k) M = ((exec' (k (Seq.image (seqOf M) i h).1) M').1, (exec' (k (Seq.image (seqOf M) i h).1) M').2.1,
        Seq.imageEvents (seqOf M) i h ++ (exec' (k (Seq.image (seqOf M) i h).1) M').2.2) := by
  cases hf : find (seqOf M).images i with
  | some x =>
    refine ⟨setComp M .images ({ (M .images : Images) with made := tryEmplace (Images.made (M .images)) i 0 } : Images), ?_, ?_, ?_⟩
    · rw [seqOf_images]
      simp only [Seq.image, hf]
      rw [show tryEmplace (Images.made (M .images)) i 0 = Images.made (M .images) from tryEmplace_there hf]
      rfl
    · intro m hm; exact setComp_other _ _ hm
    · have hf' : find (Images.made (M .images)) i = some x := hf
      simp only [imageProg, exec', Seq.image, Seq.imageEvents, hf]
      rw [hf']; rfl
  | none =>
    refine ⟨setComp (setComp M .images ({ (M .images : Images) with made := tryEmplace (Images.made (M .images)) i 0 } : Images)) .images
      ({ (M .images : Images) with made := setEntry (tryEmplace (Images.made (M .images)) i 0) i h } : Images), ?_, ?_, ?_⟩
    · rw [seqOf_images, seqOf_images]
      simp only [Seq.image, hf]
      rw [show setEntry (tryEmplace (Images.made (M .images)) i 0) i h = Images.made (M .images) ++ [(i, h)] from setEntry_emplaced hf h]
      rfl
    · intro m hm; exact (setComp_other _ _ hm).trans (setComp_other _ _ hm)
    · have hf' : find (Images.made (M .images)) i = none := hf
      simp only [imageProg, exec', Seq.image, Seq.imageEvents, hf]
      rw [hf']; rfl

theorem exec_code (x : Call) (M : Mem) :
    (exec' (code x) M).1 = (Seq.call (seqOf M) x).1 ∧ seqOf (exec' (code x) M).2.1 = (Seq.call (seqOf M) x).2 ∧
      (exec' (code x) M).2.2 = Seq.events (seqOf M) x := by
  cases x with
  | imageId d => exact ⟨rfl, rfl, rfl⟩
  | viewId v =>
    cases hf : (Views.ids (M .views)).find? (fun e => e.2.desc == v.desc) with
    | some e =>
      have hf' : (seqOf M).ids.views.find? (fun e => e.2.desc == v.desc) = some e := hf
      simp only [code, exec', Seq.call, Seq.events, Res.createViewId, hf']
      rw [hf]
      exact ⟨rfl, rfl, rfl⟩
    | none =>
      have hf' : (seqOf M).ids.views.find? (fun e => e.2.desc == v.desc) = none := hf
      simp only [code, exec', Seq.call, Seq.events, Res.createViewId, hf']
      rw [hf]
      exact ⟨rfl, rfl, rfl⟩
  | createImage i h =>
    obtain ⟨M', h1, _, h2⟩ := exec_image i h .ret M
    simp only [code, h2, exec', Seq.call, Seq.events, h1]
    exact ⟨trivial, trivial, by simp⟩
  | createView v i h h' =>
    cases hf : find (seqOf M).views v with
    | some x =>
      have hf' : find (Views.made (M .views)) v = some x := hf
      simp only [code, exec', Seq.call, Seq.events, hf]
      rw [hf']
      refine ⟨rfl, ?_, rfl⟩
      simp only [exec']
      rw [seqOf_views]
      rw [show tryEmplace (Views.made (M .views)) v 0 = Views.made (M .views) from tryEmplace_there hf]
      rfl
    | none =>
      have hf' : find (Views.made (M .views)) v = none := hf
      simp only [code, exec', Seq.call, Seq.events, hf]
      rw [hf']
      simp only []
      obtain ⟨M', h1, h3, h2⟩ := exec_image i h (fun r => .driver (.create .views h' (some r.1)) <|
        .access .views (fun c : Views => { c with made := setEntry c.made v h' }) fun _ => .unlock .views (.ret (h', true)))
        (setComp M .views ({ (M .views : Views) with made := tryEmplace (Views.made (M .views)) v 0 } : Views))
      rw [show exec' (imageProg i h _) _ = _ from h2]
      simp only [exec']
      refine ⟨trivial, ?_, ?_⟩
      rotate_left
      · simp only [Seq.imageEvents, Seq.image]
        rw [show (seqOf (setComp M .views ({ (M .views : Views) with made := tryEmplace (Views.made (M .views)) v 0 } : Views))).images = (seqOf M).images from rfl]
        cases find (seqOf M).images i <;> rfl
      have e1 : Views.made (M' .views) = tryEmplace (Views.made (M .views)) v 0 := by rw [h3 .views (by decide)]; rfl
      have e2 : Views.ids (M' .views) = Views.ids (M .views) := by rw [h3 .views (by decide)]; rfl
      have e := setEntry_emplaced hf h'
      refine (seqOf_views M' _).trans ?_
      rw [h1]
      show ({ (Seq.image _ i h).2 with ids := ⟨_, Views.ids (M' .views)⟩, views := setEntry (Views.made (M' .views)) v h' } : Seq) = _
      rw [e1, e2]
      rw [show setEntry (tryEmplace (Views.made (M .views)) v 0) v h' = (seqOf M).views ++ [(v, h')] from e]
      simp only [Seq.image]
      rw [show (seqOf (setComp M .views ({ (M .views : Views) with made := tryEmplace (Views.made (M .views)) v 0 } : Views))).images = (seqOf M).images from rfl]
      cases find (seqOf M).images i <;> rfl
  | createSampler h => exact ⟨rfl, rfl, rfl⟩
  | createBuffer h => exact ⟨rfl, rfl, rfl⟩
  | destroyImage i =>
    cases hf : find (seqOf M).images i <;>
    · have hf' := hf
      simp only [seqOf] at hf'
      simp only [code, exec', Seq.call, Seq.events, hf]
      rw [hf']
      exact ⟨rfl, rfl, rfl⟩
  | destroyView i =>
    cases hf : find (seqOf M).views i <;>
    · have hf' := hf
      simp only [seqOf] at hf'
      simp only [code, exec', Seq.call, Seq.events, hf]
      rw [hf']
      exact ⟨rfl, rfl, rfl⟩
  | destroySampler h =>
    by_cases hf : h ∈ (seqOf M).samplers
    · have hf' : h ∈ (seqOf M).samplers := hf
      simp only [seqOf] at hf'
      simp only [code, exec', Seq.call, Seq.events, if_pos hf]
      rw [if_pos hf']
      exact ⟨rfl, rfl, rfl⟩
    · have hf' : h ∉ (seqOf M).samplers := hf
      simp only [seqOf] at hf'
      simp only [code, exec', Seq.call, Seq.events, if_neg hf]
      rw [if_neg hf']
      exact ⟨rfl, rfl, rfl⟩
  | destroyBuffer h =>
    by_cases hf : h ∈ (seqOf M).buffers
    · have hf' : h ∈ (seqOf M).buffers := hf
      simp only [seqOf] at hf'
      simp only [code, exec', Seq.call, Seq.events, if_pos hf]
      rw [if_pos hf']
      exact ⟨rfl, rfl, rfl⟩
    · have hf' : h ∉ (seqOf M).buffers := hf
      simp only [seqOf] at hf'
      simp only [code, exec', Seq.call, Seq.events, if_neg hf]
      rw [if_neg hf']
      exact ⟨rfl, rfl, rfl⟩

theorem explains_of_chain {A B : XMem} {o : List (Nat × Call × Res)} (h : Chain A o B) :
    Explains (seqOf (cont A)) o (seqOf (cont B)) ∧ ∀ m, (B m).2 = (A m).2 ++ ofKind m (eventsOf (seqOf (cont A)) o) := by
  induction o generalizing A with
  | nil => cases h; exact ⟨rfl, fun m => by simp [eventsOf, ofKind]⟩
  | cons y o ih =>
    obtain ⟨t, x, r⟩ := y
    obtain ⟨e1, e2, e3⟩ := exec_code x (cont A)
    obtain ⟨h1, h2⟩ := h
    rw [exec_eq] at h1 h2
    obtain ⟨i1, i2⟩ := ih h2
    rw [with_cont, e2] at i1 i2
    refine ⟨⟨e1.symm.trans h1, i1⟩, fun m => ?_⟩
    rw [i2 m]
    simp only [withCont, addLog, eventsOf, ofKind, List.filter_append, e3, List.append_assoc]

theorem linearizes_of_inv {c : Config} {o : List (Nat × Call × Res)} {A : XMem} (I : Inv c o A) : Linearizes c o where
  explains := by
    refine ⟨seqOf (cont A), (explains_of_chain I.chain).1, fun h => ?_⟩
    have : cont A = c.mem := by
      funext m
      refine congrArg Prod.fst (I.free m ?_)
      cases ho : c.owner m with
      | none => rfl
      | some t => exact absurd ho ((I.idle t (h t)).1 m)
    rw [this]
  driver := fun m h => by
    have h1 := (explains_of_chain I.chain).2 m
    rw [I.free m h] at h1
    exact h1
  idle := fun t h => (I.idle t h).2
  busy := fun t x p h => (I.busy t x p h).elim (fun P => .inl P.2.1) (fun P => .inr ⟨_, P.2.1⟩)

/-- Every moment of a run, with the order at its end. -/
theorem run_inv_all (ts : List Nat) {c : Config} {o : List (Nat × Call × Res)} {A : XMem} (I : Inv c o A) :
    ∃ o' A', o <+: o' ∧ Inv (runSchedule c ts) o' A' ∧
      ∀ ts', ts' <+: ts → ∃ o'' A'', o <+: o'' ∧ o'' <+: o' ∧ Inv (runSchedule c ts') o'' A'' := by
  induction ts generalizing c o A with
  | nil => exact ⟨o, A, List.prefix_rfl, I, fun ts' h => ⟨o, A, List.prefix_rfl, List.prefix_rfl, by rw [List.prefix_nil.1 h]; exact I⟩⟩
  | cons t ts ih =>
    obtain ⟨c1, e1, o1, A1, h1, I1⟩ : ∃ c1, (step c t).getD c = c1 ∧ ∃ o1 A1, o <+: o1 ∧ Inv c1 o1 A1 := by
      cases h : step c t with
      | none => exact ⟨c, rfl, o, A, List.prefix_rfl, I⟩
      | some c' =>
        obtain ⟨o1, A1, h1, I1⟩ := step_inv I h
        exact ⟨c', rfl, o1, A1, h1, I1⟩
    obtain ⟨o', A', h2, I2, hall⟩ := ih I1
    refine ⟨o', A', h1.trans h2, by simpa [runSchedule, e1] using I2, fun ts' hp => ?_⟩
    cases ts' with
    | nil => exact ⟨o, A, List.prefix_rfl, h1.trans h2, I⟩
    | cons u us =>
      rw [List.cons_prefix_cons] at hp
      obtain ⟨rfl, hp⟩ := hp
      obtain ⟨o2, A2, g1, g2, g3⟩ := hall us hp
      exact ⟨o2, A2, h1.trans g1, g2, by simpa [runSchedule, e1] using g3⟩

/-! ## Calls are not lost -/

/-- The calls of a thread: made, being made, to be made. -/
def Thread.calls (th : Thread) : List Call := th.done.map (·.1) ++ th.cur.toList.map (·.1) ++ th.todo

theorem step_calls {c c' : Config} {t : Nat} (h : step c t = some c') (u : Nat) : (c'.threads u).calls = (c.threads u).calls := by
  unfold step at h
  cases hc : (c.threads t).cur with
  | none =>
    simp only [hc] at h
    split at h
    · exact absurd h (by simp)
    · rename_i x xs ht
      injection h with h; subst h
      by_cases hu : u = t
      · subst hu; simp [setThread_same, Thread.calls, hc, ht]
      · simp [setThread_other _ _ hu]
  | some y =>
    obtain ⟨x, p⟩ := y
    simp only [hc] at h
    by_cases hu : u = t
    · subst hu
      cases p <;> simp only at h <;> (try split at h) <;> first
        | (injection h with h; subst h; simp [setThread_same, Thread.calls, hc])
        | exact absurd h (by simp)
    · cases p <;> simp only at h <;> (try split at h) <;> first
        | (injection h with h; subst h; simp [setThread_other _ _ hu])
        | exact absurd h (by simp)

theorem run_calls (calls : Nat → List Call) (ts : List Nat) (u : Nat) :
    ((runSchedule (Config.init calls) ts).threads u).calls = calls u := by
  have gen : ∀ (ts : List Nat) (c : Config), ((runSchedule c ts).threads u).calls = (c.threads u).calls := by
    intro ts
    induction ts with
    | nil => intro c; rfl
    | cons t ts ih =>
      intro c
      show ((runSchedule ((step c t).getD c) ts).threads u).calls = _
      rw [ih]
      cases h : step c t with
      | none => rfl
      | some c' => exact step_calls h u
  rw [gen]; simp [Config.init, Thread.calls]

/-! ## Progress -/

/-- A thread that can't move waits for a mutex. -/
theorem stuck {c : Config} {t : Nat} (h : step c t = none) :
    Finished (c.threads t) ∨ ∃ x m k, (c.threads t).cur = some (x, .lock m k) ∧ c.owner m ≠ none := by
  unfold step at h
  cases hc : (c.threads t).cur with
  | none =>
    simp only [hc] at h
    split at h
    · rename_i ht; exact .inl ⟨hc, ht⟩
    · exact absurd h (by simp)
  | some y =>
    obtain ⟨x, p⟩ := y
    simp only [hc] at h
    cases p <;> simp only at h <;> (try split at h) <;> first
      | exact .inr ⟨x, _, _, rfl, by assumption⟩
      | exact absurd h (by simp)

theorem progress {c : Config} {o : List (Nat × Call × Res)} {A : XMem} (I : Inv c o A) :
    ∀ (n : Nat) (m : Mutex) (u : Nat), 4 - rank m ≤ n → c.owner m = some u → ∃ v, (step c v).isSome := by
  intro n
  induction n with
  | zero => intro m u h; cases m <;> simp [rank] at h
  | succ n ih =>
    intro m u hn ho
    cases hs : step c u with
    | some c' => exact ⟨u, by simp [hs]⟩
    | none =>
      rcases stuck hs with ⟨hc, _⟩ | ⟨x, m', k, hc, ho'⟩
      · exact absurd ho ((I.idle u hc).1 m)
      · cases hw : c.owner m' with
        | none => exact absurd hw ho'
        | some w =>
          refine ih m' w ?_ hw
          rcases I.busy u x _ hc with P | P
          · have := P.1.1 m ho
            omega
          · exact P.1.elim

/-- At most `n` steps. -/
def Bounded : Nat → Prog → Prop
  | 0, _ => False
  | _ + 1, .ret _ => True
  | n + 1, .lock _ k => Bounded n k
  | n + 1, .unlock _ k => Bounded n k
  | n + 1, .access _ _ k => ∀ x, Bounded n (k x)
  | n + 1, .driver _ k => Bounded n k

theorem Bounded.mono {n m : Nat} {p : Prog} (h : Bounded n p) (hm : n ≤ m) : Bounded m p := by
  induction n generalizing m p with
  | zero => exact h.elim
  | succ n ih =>
    obtain ⟨m, rfl⟩ : ∃ k, m = k + 1 := ⟨m - 1, by omega⟩
    cases p with
    | ret r => trivial
    | lock _ k => exact ih (p := k) h (by omega)
    | unlock _ k => exact ih (p := k) h (by omega)
    | access _ _ k => exact fun x => ih (h x) (by omega)
    | driver _ k => exact ih (p := k) h (by omega)

theorem code_bounded (x : Call) : Bounded 11 (code x) := by
  have image : ∀ (n i h : Nat) (k : Res → Prog), (∀ r, Bounded n (k r)) → Bounded (n + 5) (imageProg i h k) := by
    intro n i h k hk
    intro (c : Images)
    show Bounded (n + 3) (match find c.made i with | some x => _ | none => _)
    split
    · exact (hk _).mono (by omega)
    · exact fun _ => hk _
  have imp : ∀ {n} {p : Prog}, Bounded n p → n ≤ 11 → Bounded 11 p := fun h hn => h.mono hn
  cases x with
  | imageId d => exact fun _ _ => trivial
  | viewId v =>
    intro (c : Views)
    show Bounded 9 (match c.ids.find? (fun e => e.2.desc == v.desc) with | some e => _ | none => _)
    split
    · trivial
    · exact fun _ _ => trivial
  | createImage i h => exact imp (image 1 i h .ret (fun _ => trivial)) (by omega)
  | createView v i h h' =>
    intro (c : Views)
    show Bounded 9 (match find c.made v with | some x => _ | none => _)
    split
    · trivial
    · exact image 4 i h _ (fun r => fun _ => trivial)
  | createSampler h => exact fun _ => trivial
  | createBuffer h => exact fun _ => trivial
  | destroyImage i =>
    intro (c : Images)
    show Bounded 9 (match find c.made i with | some x => _ | none => _)
    split
    · exact fun _ => trivial
    · trivial
  | destroyView v =>
    intro (c : Views)
    show Bounded 9 (match find c.made v with | some x => _ | none => _)
    split
    · exact fun _ => trivial
    · trivial
  | destroySampler h =>
    intro (c : List Nat)
    show Bounded 9 (if h ∈ c then _ else _)
    split
    · exact fun _ => trivial
    · trivial
  | destroyBuffer h =>
    intro (c : List Nat)
    show Bounded 9 (if h ∈ c then _ else _)
    split
    · exact fun _ => trivial
    · trivial

end Verif.Thr
