import Verif.Props.Threads
/-!
C82: what the driver is asked for when threads share a handler. For every schedule a view is made of an image that was made before, and one
that was not destroyed if no thread destroys images; otherwise the image can be destroyed by another thread between the two.
-/
namespace Verif.Thr

open Verif.Res (find erase tryEmplace)

/-- The images of a container have been made. -/
def Good (P : Nat → Prop) (c : Images) : Prop := ∀ e ∈ c.made, P e.2

/-- A program makes views of images made before. `c`: the images, if it has their mutex. -/
def Safe : (Nat → Prop) → Option Images → Prog → Prop
  | _, _, .ret _ => True
  | P, _, .lock .images k => ∀ P' : Nat → Prop, (∀ h, P h → P' h) → ∀ c, Good P' c → Safe P' (some c) k
  | P, c, .lock _ k => Safe P c k
  | P, c, .unlock .images k => (∃ x, c = some x ∧ Good P x) ∧ Safe P none k
  | P, c, .unlock _ k => Safe P c k
  | P, c, .access .images f k => ∃ x, c = some x ∧ Safe P (some (f x)) (k x)
  | P, c, .access _ _ k => ∀ x, Safe P c (k x)
  | P, c, .driver (.create .images h none) k => Safe (fun x => P x ∨ x = h) c k
  | P, c, .driver (.create .views _ (some h)) k => P h ∧ Safe P c k
  | P, c, .driver _ k => Safe P c k

theorem Safe.mono (p : Prog) {P P' : Nat → Prop} {c : Option Images} (hP : ∀ h, P h → P' h) (h : Safe P c p) : Safe P' c p := by
  induction p generalizing P P' c with
  | ret _ => trivial
  | lock m k ih =>
    cases m with
    | images => exact fun P'' hP' => h P'' (fun x hx => hP' x (hP x hx))
    | views => exact ih (c := c) hP h
    | samplers => exact ih (c := c) hP h
    | buffers => exact ih (c := c) hP h
  | unlock m k ih =>
    cases m with
    | images =>
      obtain ⟨⟨x, hx, hg⟩, h⟩ := h
      exact ⟨⟨x, hx, fun e he => hP _ (hg e he)⟩, ih hP h⟩
    | views => exact ih (c := c) hP h
    | samplers => exact ih (c := c) hP h
    | buffers => exact ih (c := c) hP h
  | access m f k ih =>
    cases m with
    | images =>
      obtain ⟨x, hx, h⟩ := h
      exact ⟨x, hx, ih x hP h⟩
    | views => exact fun x => ih x (c := c) hP (h x)
    | samplers => exact fun x => ih x (c := c) hP (h x)
    | buffers => exact fun x => ih x (c := c) hP (h x)
  | driver e k ih =>
    cases e with
    | destroy m x => exact ih (c := c) hP h
    | create m x i =>
      cases m with
      | images =>
        cases i with
        | none => exact ih (c := c) (fun y hy => hy.elim (fun e => .inl (hP y e)) .inr) h
        | some i => exact ih (c := c) hP h
      | views =>
        cases i with
        | none => exact ih (c := c) hP h
        | some i => exact ⟨hP _ h.1, ih (c := c) hP h.2⟩
      | samplers => exact ih (c := c) hP h
      | buffers => exact ih (c := c) hP h

theorem image_safe (P : Nat → Prop) (i h : Nat) (k : Res → Prog)
    (hk : ∀ (P' : Nat → Prop) r, (∀ x, P x → P' x) → P' r.1 → Safe P' none (k r)) : Safe P none (imageProg i h k) := by
  intro P' hP (c : Images) hc
  refine ⟨c, rfl, ?_⟩
  show Safe P' _ (match find c.made i with | some x => _ | none => _)
  cases hf : find c.made i with
  | some x =>
    simp only
    refine ⟨⟨_, rfl, ?_⟩, hk P' _ hP ?_⟩
    · intro e he
      rw [show tryEmplace c.made i 0 = c.made from tryEmplace_there hf] at he
      exact hc e he
    · cases hg : c.made.find? (fun e => e.1 == i) with
      | none => simp [find, hg] at hf
      | some e =>
        have := hc e (List.mem_of_find?_eq_some hg)
        simp [find, hg] at hf
        rw [← hf]; exact this
  | none =>
    simp only
    refine ⟨_, rfl, ⟨_, rfl, ?_⟩, hk _ _ (fun x hx => .inl (hP x hx)) (.inr rfl)⟩
    intro e he
    simp only at he
    rw [show setEntry (tryEmplace c.made i 0) i h = c.made ++ [(i, h)] from setEntry_emplaced hf h] at he
    rcases List.mem_append.1 he with he | he
    · exact .inl (hc e he)
    · rw [List.mem_singleton.1 he]; exact .inr rfl

theorem code_safe (P : Nat → Prop) (x : Call) : Safe P none (code x) := by
  cases x with
  | imageId d => exact fun P' _ c hc => ⟨c, rfl, _, rfl, ⟨_, rfl, hc⟩, trivial⟩
  | viewId v =>
    intro (c : Views)
    show Safe P none (match c.ids.find? (fun e => e.2.desc == v.desc) with | some e => _ | none => _)
    split
    · trivial
    · exact fun _ _ => trivial
  | createImage i h => exact image_safe P i h .ret (fun _ _ _ _ => trivial)
  | createView v i h h' =>
    intro (c : Views)
    show Safe P none (match find c.made v with | some x => _ | none => _)
    split
    · trivial
    · exact image_safe P i h _ (fun P' r _ hr => ⟨hr, fun _ => trivial⟩)
  | createSampler h => exact fun _ => trivial
  | createBuffer h => exact fun _ => trivial
  | destroyImage i =>
    intro P' hP (c : Images) hc
    refine ⟨c, rfl, ?_⟩
    show Safe P' _ (match find c.made i with | some x => _ | none => _)
    split
    · exact ⟨_, rfl, ⟨_, rfl, fun e he => hc e (List.mem_filter.1 he).1⟩, trivial⟩
    · exact ⟨⟨_, rfl, hc⟩, trivial⟩
  | destroyView v =>
    intro (c : Views)
    show Safe P none (match find c.made v with | some x => _ | none => _)
    split
    · exact fun _ => trivial
    · trivial
  | destroySampler h =>
    intro (c : List Nat)
    show Safe P none (if h ∈ c then _ else _)
    split
    · exact fun _ => trivial
    · trivial
  | destroyBuffer h =>
    intro (c : List Nat)
    show Safe P none (if h ∈ c then _ else _)
    split
    · exact fun _ => trivial
    · trivial

/-- Images the driver was asked for. -/
def Made (tr : List Event) (h : Nat) : Prop := Event.create .images h none ∈ tr

/-- The images a thread sees as its own. -/
def own (c : Config) (t : Nat) : Option Images := if c.owner .images = some t then some (c.mem .images) else none

structure InvD (c : Config) : Prop where
  free : c.owner .images = none → Good (Made c.trace) (c.mem .images)
  safe : ∀ t x p, (c.threads t).cur = some (x, p) → Safe (Made c.trace) (own c t) p
  trace : ∀ a b h h', c.trace = a ++ .create .views h' (some h) :: b → Made a h

theorem made_append (tr : List Event) (e : Event) (h : Nat) (hm : Made tr h) : Made (tr ++ [e]) h := List.mem_append_left _ hm

/-- Every moment of every run. -/
theorem step_invD {c c' : Config} {o : List (Nat × Call × Res)} {A : XMem} {t : Nat} (I : Inv c o A) (D : InvD c) (h : step c t = some c') : InvD c' := by
  unfold step at h
  cases hc : (c.threads t).cur with
  | none =>
    simp only [hc] at h
    have h0 := (I.idle t hc).1
    split at h
    · exact absurd h (by simp)
    · rename_i x xs _
      injection h with h; subst h
      refine ⟨D.free, fun u y p hu => ?_, D.trace⟩
      by_cases hut : u = t
      · subst hut
        simp only [setThread_same, Option.some.injEq, Prod.mk.injEq] at hu
        obtain ⟨rfl, rfl⟩ := hu
        have : own c u = none := if_neg (h0 .images)
        show Safe _ (own c u) _
        rw [this]; exact code_safe _ x
      · simp only [setThread_other _ _ hut] at hu
        exact D.safe u y p hu
  | some z =>
    obtain ⟨x, p⟩ := z
    have S := D.safe t x p hc
    have B := I.busy t x p hc
    simp only [hc] at h
    -- what other threads see doesn't change when they don't have the mutex that does
    cases p with
    | ret r =>
      injection h with h; subst h
      refine ⟨D.free, fun u y p hu => ?_, D.trace⟩
      by_cases hut : u = t
      · subst hut; simp [setThread_same] at hu
      · simp only [setThread_other _ _ hut] at hu
        exact D.safe u y p hu
    | lock m k =>
      simp only at h
      split at h
      · rename_i hfree
        injection h with h; subst h
        refine ⟨fun hn => ?_, fun u y p hu => ?_, D.trace⟩
        · simp only [setOwner] at hn
          split at hn
          · cases hn
          · exact D.free hn
        · by_cases hut : u = t
          · subst hut
            simp only [setThread_same, Option.some.injEq, Prod.mk.injEq] at hu
            obtain ⟨rfl, rfl⟩ := hu
            cases m with
            | images =>
              show Safe _ (if setOwner c.owner .images (some u) .images = some u then some (c.mem .images) else none) _
              rw [if_pos (by simp [setOwner])]
              exact S _ (fun _ h => h) _ (D.free hfree)
            | views => exact S
            | samplers => exact S
            | buffers => exact S
          · simp only [setThread_other _ _ hut] at hu
            have := D.safe u y p hu
            cases m with
            | images =>
              have e1 : own c u = none := if_neg (by rw [hfree]; simp)
              rw [e1] at this
              show Safe _ (if setOwner c.owner .images (some t) .images = some u then _ else none) p
              rw [if_neg]
              · exact this
              · simp [setOwner, Ne.symm hut]
            | views => exact this
            | samplers => exact this
            | buffers => exact this
      · exact absurd h (by simp)
    | unlock m k =>
      injection h with h; subst h
      have hmt : c.owner m = some t := by rcases B with B | B <;> exact B.1.1
      refine ⟨fun hn => ?_, fun u y p hu => ?_, D.trace⟩
      · cases m with
        | images =>
          obtain ⟨⟨x', hx, hg⟩, _⟩ := S
          have : own c t = some (c.mem .images) := if_pos hmt
          rw [this] at hx; cases hx; exact hg
        | views => exact D.free hn
        | samplers => exact D.free hn
        | buffers => exact D.free hn
      · by_cases hut : u = t
        · subst hut
          simp only [setThread_same, Option.some.injEq, Prod.mk.injEq] at hu
          obtain ⟨rfl, rfl⟩ := hu
          cases m with
          | images => exact S.2
          | views => exact S
          | samplers => exact S
          | buffers => exact S
        · simp only [setThread_other _ _ hut] at hu
          have := D.safe u y p hu
          cases m with
          | images =>
            have e1 : own c u = none := if_neg (by rw [hmt]; simp [Ne.symm hut])
            rw [e1] at this
            exact this
          | views => exact this
          | samplers => exact this
          | buffers => exact this
    | access m f k =>
      injection h with h; subst h
      have hmt : c.owner m = some t := by rcases B with B | B <;> exact B.1.1
      refine ⟨fun hn => ?_, fun u y p hu => ?_, D.trace⟩
      · cases m with
        | images => exact absurd (hmt.symm.trans hn) (by simp)
        | views => exact D.free hn
        | samplers => exact D.free hn
        | buffers => exact D.free hn
      · by_cases hut : u = t
        · subst hut
          simp only [setThread_same, Option.some.injEq, Prod.mk.injEq] at hu
          obtain ⟨rfl, rfl⟩ := hu
          cases m with
          | images =>
            obtain ⟨x', hx, hs⟩ := S
            have e1 : own c u = some (c.mem .images) := if_pos hmt
            rw [e1] at hx; cases hx
            show Safe _ (if c.owner .images = some u then some (setComp c.mem .images (f (c.mem .images)) .images) else none) _
            rw [if_pos hmt, setComp_same]; exact hs
          | views => exact S _
          | samplers => exact S _
          | buffers => exact S _
        · simp only [setThread_other _ _ hut] at hu
          have := D.safe u y p hu
          cases m with
          | images =>
            have e1 : own c u = none := if_neg (by rw [hmt]; simp [Ne.symm hut])
            rw [e1] at this
            show Safe _ (if c.owner .images = some u then _ else none) p
            rw [if_neg (by rw [hmt]; simp [Ne.symm hut])]; exact this
          | views => exact this
          | samplers => exact this
          | buffers => exact this
    | driver e k =>
      injection h with h; subst h
      refine ⟨fun hn => fun y hy => made_append _ _ _ (D.free hn y hy), fun u y p hu => ?_, ?_⟩
      · by_cases hut : u = t
        · subst hut
          simp only [setThread_same, Option.some.injEq, Prod.mk.injEq] at hu
          obtain ⟨rfl, rfl⟩ := hu
          have mo : ∀ h, Made c.trace h → Made (c.trace ++ [e]) h := fun h => made_append _ _ h
          show Safe (Made (c.trace ++ [e])) (own c u) k
          cases e with
          | destroy m x => exact Safe.mono k mo S
          | create m x' i =>
            cases m with
            | images =>
              cases i with
              | none => exact Safe.mono k (fun y hy => hy.elim (mo y) (fun e => by rw [e]; simp [Made])) S
              | some i => exact Safe.mono k mo S
            | views =>
              cases i with
              | none => exact Safe.mono k mo S
              | some i => exact Safe.mono k mo S.2
            | samplers => exact Safe.mono k mo S
            | buffers => exact Safe.mono k mo S
        · simp only [setThread_other _ _ hut] at hu
          exact Safe.mono p (fun h => made_append _ _ h) (D.safe u y p hu)
      · intro a b h h' he
        rcases List.append_eq_append_iff.1 he with ⟨w, f1, f2⟩ | ⟨w, f1, f2⟩
        · cases w with
          | nil =>
            simp at f1 f2
            obtain ⟨rfl, _⟩ := f2
            rw [f1]; exact S.1
          | cons y w => simp at f2
        · cases w with
          | nil =>
            simp at f1 f2
            obtain ⟨rfl, _⟩ := f2
            rw [← f1]; exact S.1
          | cons y w =>
            simp at f2
            obtain ⟨rfl, f2⟩ := f2
            exact D.trace a w h h' f1

theorem initD (calls : Nat → List Call) : InvD (Config.init calls) where
  free := fun _ e he => by simp [Config.init, Mem.init] at he
  safe := fun t x p h => by simp [Config.init] at h
  trace := fun a b h h' e => by simp [Config.init] at e

theorem run_invD (calls : Nat → List Call) (ts : List Nat) : InvD (runSchedule (Config.init calls) ts) := by
  have gen : ∀ (ts : List Nat) (c : Config), (∃ o A, Inv c o A) → InvD c → InvD (runSchedule c ts) := by
    intro ts
    induction ts with
    | nil => intro c _ D; exact D
    | cons t ts ih =>
      intro c ⟨o, A, I⟩ D
      show InvD (runSchedule ((step c t).getD c) ts)
      cases h : step c t with
      | none => exact ih c ⟨o, A, I⟩ D
      | some c' =>
        obtain ⟨o', A', _, I'⟩ := step_inv I h
        exact ih c' ⟨o', A', I'⟩ (step_invD I D h)
  exact gen ts _ ⟨_, _, inv_init calls⟩ (initD calls)

/-- C82: for every schedule, a view is made of an image that was made before. -/
theorem view_image_made (calls : Nat → List Call) (ts : List Nat) {a b : List Event} {h h' : Nat}
    (ht : (runSchedule (Config.init calls) ts).trace = a ++ .create .views h' (some h) :: b) : Event.create .images h none ∈ a :=
  (run_invD calls ts).trace a b h h' ht

/-- A program destroys no image. -/
def Harmless : Prog → Prop
  | .ret _ => True
  | .lock _ k => Harmless k
  | .unlock _ k => Harmless k
  | .access _ _ k => ∀ x, Harmless (k x)
  | .driver e k => (∀ h, e ≠ .destroy .images h) ∧ Harmless k

theorem code_harmless (x : Call) (hx : ∀ i, x ≠ .destroyImage i) : Harmless (code x) := by
  have image : ∀ (i h : Nat) (k : Res → Prog), (∀ r, Harmless (k r)) → Harmless (imageProg i h k) := by
    intro i h k hk
    intro (c : Images)
    show Harmless (match find c.made i with | some x => _ | none => _)
    split
    · exact hk _
    · exact ⟨by simp, fun _ => hk _⟩
  cases x with
  | imageId d => exact fun _ _ => trivial
  | viewId v =>
    intro (c : Views)
    show Harmless (match c.ids.find? (fun e => e.2.desc == v.desc) with | some e => _ | none => _)
    split
    · trivial
    · exact fun _ _ => trivial
  | createImage i h => exact image i h .ret (fun _ => trivial)
  | createView v i h h' =>
    intro (c : Views)
    show Harmless (match find c.made v with | some x => _ | none => _)
    split
    · trivial
    · exact image i h _ (fun r => ⟨by simp, fun _ => trivial⟩)
  | createSampler h => exact ⟨by simp, fun _ => trivial⟩
  | createBuffer h => exact ⟨by simp, fun _ => trivial⟩
  | destroyImage i => exact absurd rfl (hx i)
  | destroyView v =>
    intro (c : Views)
    show Harmless (match find c.made v with | some x => _ | none => _)
    split
    · exact ⟨by simp, fun _ => trivial⟩
    · trivial
  | destroySampler h =>
    intro (c : List Nat)
    show Harmless (if h ∈ c then _ else _)
    split
    · exact ⟨by simp, fun _ => trivial⟩
    · trivial
  | destroyBuffer h =>
    intro (c : List Nat)
    show Harmless (if h ∈ c then _ else _)
    split
    · exact ⟨by simp, fun _ => trivial⟩
    · trivial

/-- C82: if no thread destroys images, a view is made of an image that exists. -/
theorem view_of_live_image_partial (calls : Nat → List Call) (ts : List Nat) (hno : ∀ t i, Call.destroyImage i ∉ calls t) {a b : List Event}
    {h h' : Nat} (ht : (runSchedule (Config.init calls) ts).trace = a ++ .create .views h' (some h) :: b) :
    Event.create .images h none ∈ a ∧ ∀ x, Event.destroy .images x ∉ a := by
  refine ⟨view_image_made calls ts ht, fun x hx => ?_⟩
  have gen : ∀ (ts : List Nat) (c : Config), (∀ t, (∀ x ∈ (c.threads t).todo, ∀ i, x ≠ .destroyImage i) ∧
      ∀ x p, (c.threads t).cur = some (x, p) → Harmless p) → (∀ x, Event.destroy .images x ∉ c.trace) →
      ∀ x, Event.destroy .images x ∉ (runSchedule c ts).trace := by
    intro ts
    induction ts with
    | nil => intro c _ h; exact h
    | cons t ts ih =>
      intro c H hx
      show ∀ x, Event.destroy .images x ∉ (runSchedule ((step c t).getD c) ts).trace
      cases hs : step c t with
      | none => exact ih c H hx
      | some c' =>
        have key : (∀ u, (∀ x ∈ (c'.threads u).todo, ∀ i, x ≠ .destroyImage i) ∧ ∀ x p, (c'.threads u).cur = some (x, p) → Harmless p) ∧
            ∀ x, Event.destroy .images x ∉ c'.trace := by
          unfold step at hs
          cases hc : (c.threads t).cur with
          | none =>
            simp only [hc] at hs
            split at hs
            · exact absurd hs (by simp)
            · rename_i y ys hy
              injection hs with hs; subst hs
              refine ⟨fun u => ?_, hx⟩
              by_cases hut : u = t
              · subst hut
                simp only [setThread_same]
                refine ⟨fun z hz => (H u).1 z (by rw [hy]; exact List.mem_cons_of_mem _ hz), fun z p e => ?_⟩
                simp only [Option.some.injEq, Prod.mk.injEq] at e
                rw [← e.2]
                exact code_harmless y ((H u).1 y (by rw [hy]; exact List.mem_cons_self ..))
              · simp only [setThread_other _ _ hut]; exact H u
          | some z =>
            obtain ⟨y, p⟩ := z
            have hp := (H t).2 y p hc
            have upd : ∀ (q : Prog), Harmless q → ∀ u, (∀ x ∈ (setThread c.threads t { c.threads t with cur := some (y, q) } u).todo, ∀ i, x ≠ .destroyImage i) ∧
                ∀ x p, (setThread c.threads t { c.threads t with cur := some (y, q) } u).cur = some (x, p) → Harmless p := by
              intro q hq u
              by_cases hut : u = t
              · subst hut
                simp only [setThread_same]
                refine ⟨(H u).1, fun z p e => ?_⟩
                simp only [Option.some.injEq, Prod.mk.injEq] at e
                rw [← e.2]; exact hq
              · simp only [setThread_other _ _ hut]; exact H u
            simp only [hc] at hs
            cases p with
            | ret r =>
              injection hs with hs; subst hs
              refine ⟨fun u => ?_, hx⟩
              by_cases hut : u = t
              · subst hut
                simp only [setThread_same]
                exact ⟨(H u).1, fun z p e => by cases e⟩
              · simp only [setThread_other _ _ hut]; exact H u
            | lock m k =>
              simp only at hs
              split at hs
              · injection hs with hs; subst hs; exact ⟨upd k hp, hx⟩
              · exact absurd hs (by simp)
            | unlock m k => injection hs with hs; subst hs; exact ⟨upd k hp, hx⟩
            | access m f k => injection hs with hs; subst hs; exact ⟨upd _ (hp _), hx⟩
            | driver e k =>
              injection hs with hs; subst hs
              refine ⟨upd k hp.2, fun z hz => ?_⟩
              rcases List.mem_append.1 hz with hz | hz
              · exact hx z hz
              · exact hp.1 z (List.mem_singleton.1 hz).symm
        exact ih c' key.1 key.2
  refine gen ts (Config.init calls) (fun t => ⟨fun z hz i e => hno t i (e ▸ hz), fun z p e => by simp [Config.init] at e⟩)
    (fun x => by simp [Config.init]) x ?_
  rw [ht]; exact List.mem_append_left _ hx

/-- Views of the same image, made by two threads at once. -/
def views : Nat → List Call
  | 0 => [.createView 7 1 10 20]
  | 1 => [.createView 8 1 11 21]
  | _ => []

example : (runSchedule (Config.init views) ((List.range 40).map (· % 2))).trace =
    [.create .images 10 none, .create .views 20 (some 10), .create .views 21 (some 10)] := by decide +kernel

/-- C82, what does not hold: the mutex of the images is released before the view is made. Another thread can destroy the image in between: the
driver is asked for a view of a destroyed image, although thread 0 asked for the image before. -/
theorem view_of_destroyed_image : ∃ ts, (runSchedule (Config.init mixed) ts).trace =
    [.create .images 10 none, .destroy .images 10, .create .views 20 (some 10)] :=
  ⟨List.replicate 8 0 ++ List.replicate 14 1 ++ List.replicate 3 0, by decide +kernel⟩

end Verif.Thr
