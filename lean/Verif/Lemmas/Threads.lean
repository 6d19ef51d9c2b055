import Verif.Spec.Threads
/-! Two phases of locks: calls take effect at their first release of a mutex. -/
namespace Verif.Thr

/-! ## Programs on their own -/

/-- What a mutex protects, with the calls of the driver for objects of its kind. -/
abbrev XMem := (m : Mutex) → Comp m × List Event

def setX (M : XMem) (m : Mutex) (x : Comp m × List Event) : XMem := fun n => if h : n = m then h ▸ x else M n

/-- The containers and the calls of the driver. -/
def xmem (c : Config) : XMem := fun m => (c.mem m, c.trace.filter (·.kind = m))

def XMem.init : XMem := fun m => (Mem.init m, [])

/-- A program without other threads. -/
def exec : Prog → XMem → Res × XMem
  | .ret r, M => (r, M)
  | .lock _ k, M => exec k M
  | .unlock _ k, M => exec k M
  | .access m f k, M => exec (k (M m).1) (setX M m (f (M m).1, (M m).2))
  | .driver e k, M => exec k (setX M e.kind ((M e.kind).1, (M e.kind).2 ++ [e]))

/-- The order in which mutexes are taken. -/
def rank : Mutex → Nat
  | .views => 0
  | .images => 1
  | .samplers => 2
  | .buffers => 3

/-- Mutexes held. -/
abbrev Held := Mutex → Prop

/-- After the first release: nothing is taken, only what is held is accessed; the driver is called for the kinds held. -/
def Shrink : Held → Prog → Prop
  | held, .ret _ => ∀ m, ¬ held m
  | _, .lock _ _ => False
  | held, .unlock m k => held m ∧ Shrink (fun n => held n ∧ n ≠ m) k
  | held, .access m _ k => held m ∧ ∀ x, Shrink held (k x)
  | held, .driver e k => held e.kind ∧ Shrink held k

/-- Before it: mutexes are taken in their order. -/
def Grow : Held → Prog → Prop
  | _, .ret _ => False
  | held, .lock m k => (∀ n, held n → rank n < rank m) ∧ Grow (fun n => held n ∨ n = m) k
  | held, .unlock m k => held m ∧ Shrink (fun n => held n ∧ n ≠ m) k
  | held, .access m _ k => held m ∧ ∀ x, Grow held (k x)
  | held, .driver e k => held e.kind ∧ Grow held k

theorem setComp_same (M : Mem) (m : Mutex) (x : Comp m) : setComp M m x m = x := by simp [setComp]
theorem setX_same (M : XMem) (m : Mutex) (x : Comp m × List Event) : setX M m x m = x := by simp [setX]
theorem setX_other (M : XMem) {m n : Mutex} (x : Comp m × List Event) (h : n ≠ m) : setX M m x n = M n := by simp [setX, h]
theorem setComp_other (M : Mem) {m n : Mutex} (x : Comp m) (h : n ≠ m) : setComp M m x n = M n := by simp [setComp, h]

/-- Containers not held are not changed. -/
theorem exec_frame : ∀ (p : Prog) (held : Held) (M : XMem), Shrink held p → ∀ n, ¬ held n → (exec p M).2 n = M n
  | .ret _, _, _, _, _, _ => rfl
  | .lock _ _, _, _, h, _, _ => h.elim
  | .unlock m k, held, M, h, n, hn => exec_frame k _ M h.2 n (fun e => hn e.1)
  | .access m f k, held, M, h, n, hn => by
    have hne : n ≠ m := fun e => hn (e ▸ h.1)
    simp only [exec]
    rw [exec_frame (k (M m).1) held _ (h.2 _) n hn, setX_other _ _ hne]
  | .driver e k, held, M, h, n, hn => by
    have hne : n ≠ e.kind := fun c => hn (c ▸ h.1)
    simp only [exec]
    rw [exec_frame k held _ h.2 n hn, setX_other _ _ hne]

/-- Only what is held matters. -/
theorem exec_congr : ∀ (p : Prog) (held : Held) (M M' : XMem), Shrink held p → (∀ n, held n → M n = M' n) →
    (exec p M).1 = (exec p M').1 ∧ ∀ n, held n → (exec p M).2 n = (exec p M').2 n
  | .ret _, held, M, M', h, e => ⟨rfl, fun n hn => absurd hn (h n)⟩
  | .lock _ _, _, _, _, h, _ => h.elim
  | .unlock m k, held, M, M', h, e => by
    obtain ⟨h1, h2⟩ := exec_congr k _ M M' h.2 (fun n hn => e n hn.1)
    refine ⟨h1, fun n hn => ?_⟩
    by_cases hnm : n = m
    · have hno : ¬ (held n ∧ n ≠ m) := fun c => c.2 hnm
      show (exec k M).2 n = (exec k M').2 n
      rw [exec_frame k _ M h.2 n hno, exec_frame k _ M' h.2 n hno, e n hn]
    · exact h2 n ⟨hn, hnm⟩
  | .access m f k, held, M, M', h, e => by
    simp only [exec]
    rw [← e m h.1]
    refine exec_congr (k (M m).1) held _ _ (h.2 _) (fun n hn => ?_)
    by_cases hnm : n = m
    · subst hnm; rw [setX_same, setX_same]
    · rw [setX_other _ _ hnm, setX_other _ _ hnm, e n hn]
  | .driver v k, held, M, M', h, e => by
    simp only [exec]
    rw [← e v.kind h.1]
    refine exec_congr k held _ _ h.2 (fun n hn => ?_)
    by_cases hnm : n = v.kind
    · subst hnm; rw [setX_same, setX_same]
    · rw [setX_other _ _ hnm, setX_other _ _ hnm, e n hn]

/-! ## The invariant -/

/-- What thread `t` holds. -/
def holds (c : Config) (t : Nat) : Held := fun m => c.owner m = some t

open Classical in
/-- What thread `t` has changed, the rest from `A`. -/
noncomputable def overlay (held : Held) (M A : XMem) : XMem := fun m => if held m then M m else A m

/-- The order so far explains the calls, on the level of programs. -/
def Chain : XMem → List (Nat × Call × Res) → XMem → Prop
  | A, [], A' => A = A'
  | A, (_, x, r) :: o, A' => (exec (code x) A).1 = r ∧ Chain (exec (code x) A).2 o A'

theorem chain_snoc {A B : XMem} {o : List (Nat × Call × Res)} (h : Chain A o B) (t : Nat) (x : Call) :
    Chain A (o ++ [(t, x, (exec (code x) B).1)]) (exec (code x) B).2 := by
  induction o generalizing A with
  | nil => cases h; exact ⟨rfl, rfl⟩
  | cons y o ih => exact ⟨h.1, ih h.2⟩

/-- Before its effect: whatever the others do, the rest of the call does what the call would do. -/
def Pre (c : Config) (o : List (Nat × Call × Res)) (A : XMem) (t : Nat) (x : Call) (p : Prog) : Prop :=
  Grow (holds c t) p ∧ ofThread t o = (c.threads t).done ∧
    ∀ A', (∀ m, holds c t m → A' m = A m) → exec (code x) A' = exec p (overlay (holds c t) (xmem c) A')

/-- After it: the rest of the call leads to `A` where it holds mutexes. -/
def Post (c : Config) (o : List (Nat × Call × Res)) (A : XMem) (t : Nat) (x : Call) (p : Prog) : Prop :=
  Shrink (holds c t) p ∧ ofThread t o = (c.threads t).done ++ [(x, (exec p (xmem c)).1)] ∧
    ∀ m, holds c t m → A m = (exec p (xmem c)).2 m

structure Inv (c : Config) (o : List (Nat × Call × Res)) (A : XMem) : Prop where
  chain : Chain XMem.init o A
  free : ∀ m, c.owner m = none → A m = xmem c m
  idle : ∀ t, (c.threads t).cur = none → (∀ m, ¬ holds c t m) ∧ ofThread t o = (c.threads t).done
  busy : ∀ t x p, (c.threads t).cur = some (x, p) → Pre c o A t x p ∨ Post c o A t x p

theorem code_grows (x : Call) : Grow (fun _ => False) (code x) := by
  have image : ∀ (held : Held) i h (k : Res → Prog), (∀ n, held n → rank n < 1) →
      (∀ r, Shrink held (k r)) → Grow held (imageProg i h k) := by
    intro held i h k hr hk
    have e : ∀ r, Shrink (fun n => (held n ∨ n = .images) ∧ n ≠ .images) (k r) := by
      intro r
      have : (fun n => (held n ∨ n = .images) ∧ n ≠ .images) = held := by
        funext n
        refine propext ⟨fun h => h.1.resolve_right h.2, fun h => ⟨.inl h, ?_⟩⟩
        intro en; have := hr n h; rw [en] at this; simp [rank] at this
      rw [this]; exact hk r
    refine ⟨hr, .inr rfl, fun c => ?_⟩
    show Grow _ (match Verif.Res.find c.made i with | some x => _ | none => _)
    split
    · exact ⟨.inr rfl, e _⟩
    · exact ⟨.inr rfl, .inr rfl, fun _ => ⟨.inr rfl, e _⟩⟩
  cases x with
  | imageId d => exact ⟨by simp, .inr rfl, fun _ => ⟨.inr rfl, fun _ => ⟨.inr rfl, by simp [Shrink]⟩⟩⟩
  | viewId v =>
    refine ⟨by simp, .inr rfl, fun c => ?_⟩
    show Grow _ (match c.ids.find? (fun e => e.2.desc == v.desc) with | some e => _ | none => _)
    split
    · exact ⟨.inr rfl, by simp [Shrink]⟩
    · exact ⟨.inr rfl, fun _ => ⟨.inr rfl, fun _ => ⟨.inr rfl, by simp [Shrink]⟩⟩⟩
  | createImage i h => exact image _ i h .ret (by simp) (fun r => by simp [Shrink])
  | createView v i h h' =>
    refine ⟨by simp, .inr rfl, fun c => ?_⟩
    show Grow _ (match Verif.Res.find c.made v with | some x => _ | none => _)
    split
    · exact ⟨.inr rfl, by simp [Shrink]⟩
    · refine image _ i h _ (by rintro n (h | h); exact h.elim; rw [h]; simp [rank]) (fun r => ?_)
      exact ⟨.inr rfl, .inr rfl, fun _ => ⟨.inr rfl, by simp [Shrink]⟩⟩
  | createSampler h => exact ⟨by simp, .inr rfl, .inr rfl, fun _ => ⟨.inr rfl, by simp [Shrink]⟩⟩
  | createBuffer h => exact ⟨by simp, .inr rfl, .inr rfl, fun _ => ⟨.inr rfl, by simp [Shrink]⟩⟩
  | destroyImage i =>
    refine ⟨by simp, .inr rfl, fun c => ?_⟩
    show Grow _ (match Verif.Res.find c.made i with | some x => _ | none => _)
    split
    · exact ⟨.inr rfl, .inr rfl, fun _ => ⟨.inr rfl, by simp [Shrink]⟩⟩
    · exact ⟨.inr rfl, by simp [Shrink]⟩
  | destroyView v =>
    refine ⟨by simp, .inr rfl, fun c => ?_⟩
    show Grow _ (match Verif.Res.find c.made v with | some x => _ | none => _)
    split
    · exact ⟨.inr rfl, .inr rfl, fun _ => ⟨.inr rfl, by simp [Shrink]⟩⟩
    · exact ⟨.inr rfl, by simp [Shrink]⟩
  | destroySampler h =>
    refine ⟨by simp, .inr rfl, fun (c : List Nat) => ?_⟩
    show Grow _ (if h ∈ (c : List Nat) then _ else _)
    split
    · exact ⟨.inr rfl, .inr rfl, fun _ => ⟨.inr rfl, by simp [Shrink]⟩⟩
    · exact ⟨.inr rfl, by simp [Shrink]⟩
  | destroyBuffer h =>
    refine ⟨by simp, .inr rfl, fun (c : List Nat) => ?_⟩
    show Grow _ (if h ∈ (c : List Nat) then _ else _)
    split
    · exact ⟨.inr rfl, .inr rfl, fun _ => ⟨.inr rfl, by simp [Shrink]⟩⟩
    · exact ⟨.inr rfl, by simp [Shrink]⟩

theorem inv_init (calls : Nat → List Call) : Inv (Config.init calls) [] XMem.init where
  chain := rfl
  free := fun _ _ => rfl
  idle := fun t _ => ⟨fun m h => by simp [holds, Config.init] at h, rfl⟩
  busy := fun t x p h => by simp [Config.init] at h

theorem ofThread_snoc (t u : Nat) (o : List (Nat × Call × Res)) (x : Call) (r : Res) :
    ofThread t (o ++ [(u, x, r)]) = if u = t then ofThread t o ++ [(x, r)] else ofThread t o := by
  unfold ofThread
  by_cases h : u = t <;> simp [h]

/-! ## Steps -/

theorem other {c c' : Config} {o o' : List (Nat × Call × Res)} {A A' : XMem} {u : Nat}
    (hth : c'.threads u = c.threads u) (hh : holds c' u = holds c u) (ho : ofThread u o' = ofThread u o)
    (hm : ∀ m, holds c u m → xmem c' m = xmem c m) (hA : ∀ m, holds c u m → A' m = A m) {x : Call} {p : Prog}
    (h : Pre c o A u x p ∨ Post c o A u x p) : Pre c' o' A' u x p ∨ Post c' o' A' u x p := by
  rcases h with ⟨h1, h2, h3⟩ | ⟨h1, h2, h3⟩
  · refine .inl ⟨hh ▸ h1, by rw [ho, hth, h2], fun B hB => ?_⟩
    rw [hh] at hB ⊢
    rw [h3 B (fun m hm' => (hB m hm').trans (hA m hm'))]
    congr 1
    funext m
    unfold overlay
    split
    · rename_i hmm; exact (hm m hmm).symm
    · rfl
  · obtain ⟨e1, e2⟩ := exec_congr p _ (xmem c) (xmem c') h1 (fun n hn => (hm n hn).symm)
    refine .inr ⟨hh ▸ h1, by rw [ho, hth, h2, e1], fun m hmm => ?_⟩
    rw [hh] at hmm
    rw [hA m hmm, h3 m hmm, e2 m hmm]

/-- A step of thread `t` that leaves alone what `t` does not hold. -/
theorem lift {c c' : Config} {o o' : List (Nat × Call × Res)} {A A' : XMem} {t : Nat} (I : Inv c o A)
    (hth : ∀ u, u ≠ t → c'.threads u = c.threads u) (hh : ∀ u, u ≠ t → holds c' u = holds c u)
    (ho : ∀ u, u ≠ t → ofThread u o' = ofThread u o)
    (hm : ∀ m, ¬ holds c t m → xmem c' m = xmem c m) (hA : ∀ m, ¬ holds c t m → A' m = A m)
    (chain : Chain XMem.init o' A') (free : ∀ m, c'.owner m = none → A' m = xmem c' m)
    (idle : (c'.threads t).cur = none → (∀ m, ¬ holds c' t m) ∧ ofThread t o' = (c'.threads t).done)
    (busy : ∀ x p, (c'.threads t).cur = some (x, p) → Pre c' o' A' t x p ∨ Post c' o' A' t x p) : Inv c' o' A' := by
  have dis : ∀ u, u ≠ t → ∀ m, holds c u m → ¬ holds c t m := by
    intro u hu m h h'
    unfold holds at h h'
    rw [h] at h'; exact hu (Option.some.inj h')
  refine ⟨chain, free, fun u => ?_, fun u x p => ?_⟩
  · by_cases hu : u = t
    · subst hu; exact idle
    · intro h
      rw [hth u hu] at h ⊢
      rw [ho u hu, hh u hu]; exact I.idle u h
  · by_cases hu : u = t
    · subst hu; exact busy x p
    · intro h
      rw [hth u hu] at h
      exact other (hth u hu) (hh u hu) (ho u hu) (fun m h => hm m (dis u hu m h)) (fun m h => hA m (dis u hu m h)) (I.busy u x p h)

theorem setThread_same (f : Nat → Thread) (t : Nat) (x : Thread) : setThread f t x t = x := by simp [setThread]
theorem setThread_other (f : Nat → Thread) {t u : Nat} (x : Thread) (h : u ≠ t) : setThread f t x u = f u := by simp [setThread, h]

theorem overlay_none {held : Held} (h : ∀ m, ¬ held m) (M A : XMem) : overlay held M A = A := by
  funext m; simp [overlay, h m]

/-- Thread `t` changes what one of its mutexes protects. -/
theorem moved {c c' : Config} {o : List (Nat × Call × Res)} {A : XMem} {t : Nat} {x : Call} {p k : Prog} {m : Mutex} {y : Comp m × List Event}
    (I : Inv c o A) (hc : (c.threads t).cur = some (x, p)) (hmt : holds c t m) (ho : c'.owner = c.owner)
    (hth : c'.threads = setThread c.threads t { c.threads t with cur := some (x, k) }) (hx : xmem c' = setX (xmem c) m y)
    (hex : ∀ M : XMem, M m = xmem c m → exec p M = exec k (setX M m y)) (hg : Grow (holds c t) p → Grow (holds c t) k)
    (hs : Shrink (holds c t) p → Shrink (holds c t) k) : Inv c' o A := by
  have hh : ∀ u, holds c' u = holds c u := fun u => by funext n; simp only [holds, ho]
  have hfr : ∀ n, ¬ holds c t n → xmem c' n = xmem c n := fun n hn => by rw [hx]; exact setX_other _ _ (fun e => hn (e ▸ hmt))
  have hct : c'.threads t = { c.threads t with cur := some (x, k) } := by rw [hth]; exact setThread_same _ _ _
  refine lift (t := t) I (fun u hu => by rw [hth]; exact setThread_other _ _ hu) (fun u _ => hh u) (fun _ _ => rfl) hfr (fun _ _ => rfl)
    I.chain ?_ ?_ ?_
  · intro n hn
    rw [ho] at hn
    have : ¬ holds c t n := by intro e; unfold holds at e; rw [hn] at e; cases e
    rw [I.free n hn]; exact (hfr n this).symm
  · intro e; rw [hct] at e; cases e
  · intro z q e
    rw [hct] at e
    simp only [Option.some.injEq, Prod.mk.injEq] at e
    obtain ⟨rfl, rfl⟩ := e
    rcases I.busy t x p hc with B | B
    · refine .inl ⟨by rw [hh]; exact hg B.1, by rw [hct]; exact B.2.1, fun D hD => ?_⟩
      rw [hh] at hD ⊢
      rw [B.2.2 D hD, hex _ (by simp [overlay, hmt])]
      congr 1
      funext n
      by_cases hn : n = m
      · subst hn; rw [setX_same]; simp [overlay, hmt, hx, setX_same]
      · rw [setX_other _ _ hn]; simp only [overlay, hx, setX_other _ _ hn]
    · have E := hex (xmem c) rfl
      rw [← hx] at E
      refine .inr ⟨by rw [hh]; exact hs B.1, by rw [hct, ← E]; exact B.2.1, fun n hn => ?_⟩
      rw [hh] at hn
      rw [← E]; exact B.2.2 n hn

/-- A step keeps the invariant; a call takes effect, if at all, after those that have. -/
theorem step_inv {c c' : Config} {o : List (Nat × Call × Res)} {A : XMem} {t : Nat} (I : Inv c o A) (h : step c t = some c') :
    ∃ o' A', o <+: o' ∧ Inv c' o' A' := by
  unfold step at h
  cases hc : (c.threads t).cur with
  | none =>
    obtain ⟨h0, hd⟩ := I.idle t hc
    simp only [hc] at h
    split at h
    · exact absurd h (by simp)
    · rename_i x xs _
      injection h with h; subst h
      refine ⟨o, A, List.prefix_rfl, lift (t := t) I (fun u hu => setThread_other _ _ hu) (fun _ _ => rfl) (fun _ _ => rfl) (fun _ _ => rfl)
        (fun _ _ => rfl) I.chain I.free ?_ ?_⟩
      · intro e; simp [setThread_same] at e
      · intro y p e
        simp only [setThread_same, Option.some.injEq, Prod.mk.injEq] at e
        obtain ⟨rfl, rfl⟩ := e
        refine .inl ⟨?_, by simp only [setThread_same]; exact hd, fun B _ => ?_⟩
        · have e : holds { c with threads := setThread c.threads t { c.threads t with todo := xs, cur := some (x, code x) } } t =
              fun _ => False := by funext m; exact eq_false (h0 m)
          rw [e]; exact code_grows x
        · show exec (code x) B = exec (code x) (overlay (holds c t) (xmem c) B)
          rw [overlay_none h0]
  | some y =>
    obtain ⟨x, p⟩ := y
    have B := I.busy t x p hc
    simp only [hc] at h
    cases p with
    | ret r =>
      injection h with h; subst h
      rcases B with B | B
      · exact B.1.elim
      · refine ⟨o, A, List.prefix_rfl, lift (t := t) I (fun u hu => setThread_other _ _ hu) (fun _ _ => rfl) (fun _ _ => rfl) (fun _ _ => rfl)
          (fun _ _ => rfl) I.chain I.free ?_ ?_⟩
        · intro _
          exact ⟨B.1, by simp only [setThread_same]; exact B.2.1⟩
        · intro y p e; simp [setThread_same] at e
    | lock m k =>
      simp only at h
      split at h
      · rename_i hfree
        injection h with h; subst h
        rcases B with B | B
        · have hh : ∀ n, holds { c with owner := setOwner c.owner m (some t), threads := setThread c.threads t { c.threads t with cur := some (x, k) } } t n
              ↔ holds c t n ∨ n = m := by
            intro n
            simp only [holds, setOwner]
            by_cases hn : n = m
            · simp [hn]
            · simp [hn]
          have hhf := funext fun n => propext (hh n)
          refine ⟨o, A, List.prefix_rfl, lift (t := t) I (fun u hu => setThread_other _ _ hu) ?_ (fun _ _ => rfl) (fun _ _ => rfl)
            (fun _ _ => rfl) I.chain ?_ ?_ ?_⟩
          · intro u hu
            funext n
            simp only [holds, setOwner]
            by_cases hn : n = m
            · simp [hn, hfree, Ne.symm hu]
            · simp [hn]
          · intro n hn
            simp only [setOwner] at hn
            split at hn
            · exact absurd hn (by simp)
            · exact I.free n hn
          · intro e; simp [setThread_same] at e
          · intro y p e
            simp only [setThread_same, Option.some.injEq, Prod.mk.injEq] at e
            obtain ⟨rfl, rfl⟩ := e
            refine .inl ⟨?_, by simp only [setThread_same]; exact B.2.1, fun D hD => ?_⟩
            · rw [hhf]; exact B.1.2
            · rw [B.2.2 D (fun n hn => hD n ((hh n).2 (.inl hn)))]
              show exec k _ = exec k _
              congr 1
              funext n
              simp only [overlay]
              by_cases hn : n = m
              · have h1 : ¬ holds c t n := by simp [holds, hn, hfree]
                rw [if_neg h1, if_pos ((hh n).2 (.inr hn)), hD n ((hh n).2 (.inr hn)), I.free n (hn ▸ hfree)]; rfl
              · by_cases hn' : holds c t n
                · rw [if_pos hn', if_pos ((hh n).2 (.inl hn'))]; rfl
                · rw [if_neg hn', if_neg (fun e => ((hh n).1 e).elim hn' hn)]
        · exact B.1.elim
      · exact absurd h (by simp)
    | driver e k =>
      injection h with h; subst h
      have hmt : holds c t e.kind := by rcases B with B | B <;> exact B.1.1
      refine ⟨o, A, List.prefix_rfl, moved (m := e.kind) (k := k) (y := ((xmem c e.kind).1, (xmem c e.kind).2 ++ [e])) I hc hmt rfl rfl ?_ ?_
        (fun h => h.2) (fun h => h.2)⟩
      · funext n
        by_cases hn : n = e.kind
        · subst hn; rw [setX_same]; simp [xmem]
        · rw [setX_other _ _ hn]; simp [xmem, Ne.symm hn]
      · intro M hM; simp only [exec]; rw [hM]
    | access m f k =>
      injection h with h; subst h
      have hmt : holds c t m := by rcases B with B | B <;> exact B.1.1
      refine ⟨o, A, List.prefix_rfl, moved (m := m) (k := k (c.mem m)) (y := (f (xmem c m).1, (xmem c m).2)) I hc hmt rfl rfl ?_ ?_
        (fun h => h.2 _) (fun h => h.2 _)⟩
      · funext n
        by_cases hn : n = m
        · subst hn; rw [setX_same]; simp [xmem, setComp_same]
        · rw [setX_other _ _ hn]; simp [xmem, setComp_other _ _ hn]
      · intro M hM; simp only [exec]; rw [hM]; rfl
    | unlock m k =>
      injection h with h; subst h
      have hmt : holds c t m := by rcases B with B | B <;> exact B.1.1
      have hsh : Shrink (fun n => holds c t n ∧ n ≠ m) k := by rcases B with B | B <;> exact B.1.2
      have hh : ∀ n, holds { c with owner := setOwner c.owner m none, threads := setThread c.threads t { c.threads t with cur := some (x, k) } } t n
          ↔ holds c t n ∧ n ≠ m := by
        intro n
        simp only [holds, setOwner]
        by_cases hn : n = m <;> simp [hn]
      have hhf := funext fun n => propext (hh n)
      have hoth : ∀ u, u ≠ t → holds { c with owner := setOwner c.owner m none, threads := setThread c.threads t { c.threads t with cur := some (x, k) } } u
          = holds c u := by
        intro u hu
        funext n
        simp only [holds, setOwner]
        by_cases hn : n = m
        · subst hn
          have : c.owner n = some t := hmt
          simp [this, Ne.symm hu]
        · simp [hn]
      -- the order after the step, with `k` in place of the rest of the call
      have key : ∃ o' A', o <+: o' ∧ Chain XMem.init o' A' ∧ (∀ u, u ≠ t → ofThread u o' = ofThread u o) ∧ (∀ n, ¬ holds c t n → A' n = A n) ∧
          ofThread t o' = (c.threads t).done ++ [(x, (exec k (xmem c)).1)] ∧ ∀ n, holds c t n → A' n = (exec k (xmem c)).2 n := by
        rcases B with B | B
        · have E := B.2.2 A (fun _ _ => rfl)
          obtain ⟨e1, e2⟩ := exec_congr (.unlock m k) (holds c t) (overlay (holds c t) (xmem c) A) (xmem c) B.1
            (fun n hn => by simp [overlay, hn])
          refine ⟨o ++ [(t, x, (exec (code x) A).1)], (exec (code x) A).2, List.prefix_append _ _, chain_snoc I.chain t x, ?_, ?_, ?_, ?_⟩
          · intro u hu; rw [ofThread_snoc, if_neg (Ne.symm hu)]
          · intro n hn
            rw [E, exec_frame (.unlock m k) (holds c t) _ B.1 n hn]; simp [overlay, hn]
          · rw [ofThread_snoc, if_pos rfl, B.2.1, E, e1]; rfl
          · intro n hn; rw [E, e2 n hn]; rfl
        · exact ⟨o, A, List.prefix_rfl, I.chain, fun _ _ => rfl, fun _ _ => rfl, B.2.1, B.2.2⟩
      obtain ⟨o', A', hpre, hch, ho, hA, hr, hx⟩ := key
      refine ⟨o', A', hpre, lift (t := t) I (fun u hu => setThread_other _ _ hu) hoth ho (fun _ _ => rfl) hA hch ?_ ?_ ?_⟩
      · intro n hn
        by_cases hnm : n = m
        · rw [hx n (hnm ▸ hmt), exec_frame k _ _ hsh n (fun e => e.2 hnm)]; rfl
        · have hn' : c.owner n = none := by simpa [setOwner, hnm] using hn
          have : ¬ holds c t n := by intro e; unfold holds at e; rw [hn'] at e; cases e
          rw [hA n this, I.free n hn']; rfl
      · intro e; simp [setThread_same] at e
      · intro y p e
        simp only [setThread_same, Option.some.injEq, Prod.mk.injEq] at e
        obtain ⟨rfl, rfl⟩ := e
        refine .inr ⟨hhf ▸ hsh, by simp only [setThread_same]; exact hr, fun n hn => hx n ((hh n).1 hn).1⟩

/-- For every schedule, from a state of the invariant. -/
theorem run_inv (ts : List Nat) {c : Config} {o : List (Nat × Call × Res)} {A : XMem} (I : Inv c o A) :
    ∃ o' A', o <+: o' ∧ Inv (runSchedule c ts) o' A' := by
  induction ts generalizing c o A with
  | nil => exact ⟨o, A, List.prefix_rfl, I⟩
  | cons t ts ih =>
    cases h : step c t with
    | none =>
      obtain ⟨o', A', h1, h2⟩ := ih I
      exact ⟨o', A', h1, by simpa [runSchedule, h] using h2⟩
    | some c' =>
      obtain ⟨o1, A1, h1, I1⟩ := step_inv I h
      obtain ⟨o', A', h2, I2⟩ := ih I1
      exact ⟨o', A', h1.trans h2, by simpa [runSchedule, h] using I2⟩

end Verif.Thr
