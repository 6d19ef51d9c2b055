import Verif.Lemmas.Indent
/-
C105: the indent buffers of the exported streams.
-/
namespace Verif.Ind
open Verif.Dot (Stream)

theorem putChar_buf (s : Stream) (c : Char) : (s.putChar c).buf.isSome = s.buf.isSome := by
  unfold Stream.putChar
  cases h : s.buf <;> simp

theorem put_buf (s : Stream) (text : List Char) : (s.put text).buf.isSome = s.buf.isSome := by
  unfold Stream.put
  induction text generalizing s with
  | nil => rfl
  | cons c r ih => rw [List.foldl_cons, ih, putChar_buf]

theorem put_none {s : Stream} (h : s.buf = none) (text : List Char) : (s.put text).buf = none := by
  have := put_buf s text
  rw [h] at this
  exact Option.isNone_iff_eq_none.1 (by simpa using this)

theorem put_some {s : Stream} {c} (h : s.buf = some c) (text : List Char) : ∃ d, (s.put text).buf = some d := by
  have := put_buf s text
  rw [h] at this
  exact Option.isSome_iff_exists.1 this

theorem indent_some (s : Stream) (i : Int) : ∃ d, (s.indent i).buf = some d := ⟨_, rfl⟩

theorem inv_start (prog : Nat → List Op) (h : OwnStreams prog) : Inv prog { rest := prog } (fun _ => .absent) where
  fits _ := ⟨rfl, rfl⟩
  inj _ _ _ h := nomatch h
  used _ h := absurd rfl h
  fresh _ _ h := nomatch h
  at_ _ := trivial
  uses := h
  lft _ := rfl
  text _ := rfl
  ok := rfl

theorem opened_upd (ph : Nat → Phase) (a t : Nat) (p : Phase) :
    (fun x => (upd ph a p x).opened t) = upd (fun x => (ph x).opened t) a (p.opened t) := by
  funext x
  by_cases h : x = a
  · subst h; simp
  · rw [upd_ne _ _ h, upd_ne _ _ h]

theorem opened_keep (ph : Nat → Phase) (a t : Nat) (p : Phase) (h : p.opened t = (ph a).opened t) :
    (fun x => (upd ph a p x).opened t) = fun x => (ph x).opened t := by
  rw [opened_upd, h]
  funext x
  by_cases hx : x = a
  · subst hx; simp
  · rw [upd_ne _ _ hx]

theorem mid_change {prog w ph t a q w'} (p : Phase) (h : Inv prog w ph) (hq : ph a = q)
    (c : Change w ph t a p w') (ho : p.opened t = q.opened t) (hr : w'.rest t = w.rest t) (hout : w'.out t = w.out t)
    (hpend : (w.pc t).pend = [] ∧ (w'.pc t).pend = []
      ∨ ∃ i, (w.pc t).pend = [.indent a i] ∧ ((w'.pc t).pend = [.indent a i] ∧ (abs w' a).indent i = (abs w a).indent i
          ∨ (w'.pc t).pend = [] ∧ abs w' a = (abs w a).indent i))
    (hab : (w.pc t).pend = [] → q.opened t = false) : Inv prog w' (upd ph a p) := by
  have hk := opened_keep ph a t p (by rw [hq]; exact ho)
  refine c.inv h (by rw [hk, hr]; exact h.uses t) (by rw [hk, hr]; exact h.lft t) ?_
  rw [hr, hout, ← h.text t]
  refine congrArg _ ?_
  have hu := h.uses t
  rcases hpend with ⟨h1, h2⟩ | ⟨i, h1, ⟨h2, h3⟩ | ⟨h2, h3⟩⟩
  · rw [h1, h2]
    refine alone_congr _ _ _ _ hu fun x hx => c.abs_same h (fun e => ?_) hx
    subst e
    have := hab h1
    rw [hq] at hx
    exact absurd hx (by rw [this]; decide)
  · rw [h1, h2]
    change alone (upd (abs w') a ((abs w' a).indent i)) (w.rest t) = alone (upd (abs w) a ((abs w a).indent i)) (w.rest t)
    refine alone_congr _ _ _ _ hu fun x hx => ?_
    by_cases e : x = a
    · subst e; simp [h3]
    · rw [upd_ne _ _ e, upd_ne _ _ e]; exact c.abs_same h e hx
  · rw [h1, h2]
    change alone (abs w') (w.rest t) = alone (upd (abs w) a ((abs w a).indent i)) (w.rest t)
    refine alone_congr _ _ _ _ hu fun x hx => ?_
    by_cases e : x = a
    · subst e; rw [upd_same, h3]
    · rw [upd_ne _ _ e]; exact c.abs_same h e hx

theorem continue_inv {prog w ph} {t : Nat} (h : Inv prog w ph) (hp : w.pc t ≠ .idle) :
    ∃ ph', Inv prog (w.continue t (w.pc t)) ph' := by
  have hat := h.at_ t
  cases hpc : w.pc t with
  | idle => exact absurd hpc hp
  | insert a b i =>
    rw [hpc] at hat
    simp only [AtPc] at hat
    have hf := h.fits a
    rw [hat] at hf
    obtain ⟨⟨tx, h1⟩, h2, h3, h4⟩ := hf
    refine ⟨_, mid_change (.installing t b i) h hat ⟨.inr (by rw [hat]; rfl), .inr rfl, .inr (by rw [hpc]; rfl), fun x hx => rfl,
      fun x hx => upd_ne _ _ hx, fun _ _ _ => rfl, fun b' hb hb' => by rw [hat] at hb'; exact hb', fun b' hb' => .inl (by rw [hat]; exact hb'),
      Nat.le_refl _, fun u hu => upd_ne _ _ hu, fun _ _ => rfl, fun _ _ => rfl, ?_, ?_, h.ok⟩ rfl rfl rfl ?_ ?_⟩
    · exact ⟨⟨tx, h1⟩, by simp [World.continue, h2], h3, upd_same ..⟩
    · simp [World.continue, AtPc]
    · exact .inr ⟨i, by rw [hpc]; rfl, .inl ⟨by simp [World.continue, Pc.pend], rfl⟩⟩
    · rw [hpc]; exact fun e => nomatch e
  | install a b i =>
    rw [hpc] at hat
    simp only [AtPc] at hat
    have hf := h.fits a
    rw [hat] at hf
    obtain ⟨⟨tx, h1⟩, h2, h3, h4⟩ := hf
    have e : w.continue t (.install a b i)
        = { w with streams := upd w.streams a (some ⟨tx, some b, 0⟩), pc := upd w.pc t (.register a b i) } := by
      simp only [World.continue, h1]
    rw [e]
    refine ⟨_, mid_change (.registering t b i) h hat
      ⟨.inr (by rw [hat]; rfl), .inr rfl, .inr (by rw [hpc]; rfl), fun x hx => upd_ne _ _ hx,
      fun x hx => rfl, fun _ _ _ => rfl, fun b' hb hb' => by rw [hat] at hb'; exact hb', fun b' hb' => .inl (by rw [hat]; exact hb'),
      Nat.le_refl _, fun u hu => upd_ne _ _ hu, fun _ _ => rfl, fun _ _ => rfl, ?_, ?_, h.ok⟩ rfl rfl rfl ?_ ?_⟩
    · exact ⟨⟨tx, upd_same ..⟩, h2, h3, upd_same ..⟩
    · simp [AtPc]
    · refine .inr ⟨i, by rw [hpc]; rfl, .inl ⟨by simp [Pc.pend], ?_⟩⟩
      simp [abs, h1, h3, Stream.indent]
    · rw [hpc]; exact fun e => nomatch e
  | register a b i =>
    rw [hpc] at hat
    simp only [AtPc] at hat
    have hf := h.fits a
    rw [hat] at hf
    obtain ⟨⟨tx, h1⟩, h2, h3, h4⟩ := hf
    have e : w.continue t (.register a b i)
        = { w with streams := upd w.streams a (some ⟨tx, some b, 1⟩), pc := upd w.pc t .idle, heap := upd w.heap b (Stream.indent ⟨[], some (0, true)⟩ i).buf } := by
      simp only [World.continue, h1, World.bump, h3]
    rw [e]
    refine ⟨_, mid_change (.ready t b) h hat
      ⟨.inr (by rw [hat]; rfl), .inr rfl, .inr (by rw [hpc]; rfl), fun x hx => upd_ne _ _ hx,
      fun x hx => rfl, fun b' hb _ => upd_ne _ _ (fun e => hb (by rw [hat, e]; rfl)), fun b' hb hb' => by rw [hat] at hb'; exact hb', fun b' hb' => .inl (by rw [hat]; exact hb'),
      Nat.le_refl _, fun u hu => upd_ne _ _ hu, fun _ _ => rfl, fun _ _ => rfl, ?_, ?_, h.ok⟩ rfl rfl rfl ?_ ?_⟩
    · exact ⟨⟨tx, upd_same ..⟩, h2, _, upd_same ..⟩
    · simp [AtPc]
    · refine .inr ⟨i, by rw [hpc]; rfl, .inr ⟨by simp [Pc.pend], ?_⟩⟩
      simp [abs, h1, h3, Stream.indent]
    · rw [hpc]; exact fun e => nomatch e
  | look a n =>
    rw [hpc] at hat
    obtain ⟨rfl, b, hat⟩ := hat
    have hf := h.fits a
    rw [hat] at hf
    obtain ⟨h1, h2, h3, h4⟩ := hf
    refine ⟨_, mid_change (.deleting t b) h hat ⟨.inr (by rw [hat]; rfl), .inr rfl, .inr (by rw [hpc]; rfl), fun x hx => rfl,
      fun x hx => rfl, fun _ _ _ => rfl, fun b' hb hb' => by rw [hat] at hb'; exact hb', fun b' hb' => .inl (by rw [hat]; exact hb'),
      Nat.le_refl _, fun u hu => upd_ne _ _ hu, fun _ _ => rfl, fun _ _ => rfl, ?_, ?_, h.ok⟩ rfl rfl rfl ?_ ?_⟩
    · exact ⟨h1, h2, h3, by simp [World.continue, World.goto, h2]⟩
    · simp [World.continue, World.goto, AtPc, h2]
    · exact .inl ⟨by rw [hpc]; rfl, by simp [World.continue, World.goto, Pc.pend]⟩
    · exact fun _ => rfl
  | delete a n ob =>
    rw [hpc] at hat
    obtain ⟨rfl, b, rfl, hat⟩ := hat
    have hf := h.fits a
    rw [hat] at hf
    obtain ⟨h1, h2, ⟨c, h3⟩, h4⟩ := hf
    have e : w.continue t (.delete a 1 (some b)) = { w with heap := upd w.heap b none, pc := upd w.pc t (.erase a 1) } := by
      have : w.heap b ≠ none := by rw [h3]; exact fun e => nomatch e
      simp only [World.continue]
      rw [if_neg this]
    rw [e]
    refine ⟨_, mid_change (.erasing t b) h hat
      ⟨.inr (by rw [hat]; rfl), .inr rfl, .inr (by rw [hpc]; rfl), fun x hx => rfl,
      fun x hx => rfl, fun b' hb _ => upd_ne _ _ (fun e => hb (by rw [hat, e]; rfl)), fun b' hb hb' => ?_, fun b' hb' => (nomatch hb'),
      Nat.le_refl _, fun u hu => upd_ne _ _ hu, fun _ _ => rfl, fun _ _ => rfl, ?_, ?_, h.ok⟩ rfl rfl rfl ?_ ?_⟩
    · rw [hat] at hb'
      have : b = b' := Option.some.inj hb'
      subst this
      exact absurd (upd_same ..) hb
    · exact ⟨h1, h2, upd_same ..⟩
    · simp [AtPc]
    · exact .inl ⟨by rw [hpc]; rfl, by simp [Pc.pend]⟩
    · exact fun _ => rfl
  | erase a n =>
    rw [hpc] at hat
    obtain ⟨rfl, b, hat⟩ := hat
    have hf := h.fits a
    rw [hat] at hf
    obtain ⟨h1, h2, h4⟩ := hf
    refine ⟨_, mid_change (.releasing t) h hat ⟨.inr (by rw [hat]; rfl), .inr rfl, .inr (by rw [hpc]; rfl), fun x hx => rfl,
      fun x hx => upd_ne _ _ hx, fun _ _ _ => rfl, fun b' hb hb' => by rw [hat] at hb'; exact (nomatch hb'), fun b' hb' => (nomatch hb'),
      Nat.le_refl _, fun u hu => upd_ne _ _ hu, fun _ _ => rfl, fun _ _ => rfl, ?_, ?_, h.ok⟩ rfl rfl rfl ?_ ?_⟩
    · exact ⟨h1, upd_same .., upd_same ..⟩
    · simp [World.continue, AtPc]
    · exact .inl ⟨by rw [hpc]; rfl, by simp [World.continue, Pc.pend]⟩
    · exact fun _ => rfl
  | release a =>
    rw [hpc] at hat
    simp only [AtPc] at hat
    have hf := h.fits a
    rw [hat] at hf
    obtain ⟨h1, h2, h4⟩ := hf
    refine ⟨_, mid_change .absent h hat ⟨.inr (by rw [hat]; rfl), .inl rfl, .inr (by rw [hpc]; rfl), fun x hx => upd_ne _ _ hx,
      fun x hx => rfl, fun _ _ _ => rfl, fun b' hb hb' => by rw [hat] at hb'; exact (nomatch hb'), fun b' hb' => (nomatch hb'),
      Nat.le_refl _, fun u hu => upd_ne _ _ hu, fun _ _ => rfl, fun _ _ => rfl, ?_, ?_, h.ok⟩ rfl rfl rfl ?_ ?_⟩
    · exact ⟨upd_same .., h2⟩
    · simp [World.continue, AtPc]
    · exact .inl ⟨by rw [hpc]; rfl, by simp [World.continue, Pc.pend]⟩
    · exact fun _ => rfl

theorem phase_open {prog w ph} {t a : Nat} (h : Inv prog w ph) (hi : w.pc t = .idle) (ho : (ph a).opened t = true) :
    (ph a = .plain t ∧ ∃ tx, w.streams a = some ⟨tx, none, 0⟩ ∧ w.table a = none)
    ∨ ∃ b tx c, ph a = .ready t b ∧ w.streams a = some ⟨tx, some b, 1⟩ ∧ w.table a = some b ∧ w.heap b = some c := by
  have hf := h.fits a
  revert ho hf
  cases hph : ph a <;> simp only [Phase.opened, Fits] <;> intro ho hf
  all_goals first
    | exact absurd ho Bool.false_ne_true
    | (have e := of_decide_eq_true ho; subst e)
  · exact .inl ⟨rfl, hf.1.elim fun tx e => ⟨tx, e, hf.2⟩⟩
  · rw [hi] at hf; exact absurd hf.2.2.2 (fun e => nomatch e)
  · rw [hi] at hf; exact absurd hf.2.2.2 (fun e => nomatch e)
  · rw [hi] at hf; exact absurd hf.2.2.2 (fun e => nomatch e)
  · obtain ⟨⟨tx, h1⟩, h2, c, h3⟩ := hf
    exact .inr ⟨_, tx, c, rfl, h1, h2, h3⟩

theorem phase_free {prog w ph} {a : Nat} (h : Inv prog w ph) (hs : w.streams a = none) : ph a = .absent := by
  have hf := h.fits a
  cases hph : ph a <;> rw [hph] at hf <;> simp only [Fits, hs] at hf <;> first | rfl | simp at hf

theorem begin_inv {prog w ph} {t : Nat} {op : Op} {r : List Op} (h : Inv prog w ph) (hi : w.pc t = .idle) (hr : w.rest t = op :: r)
    (hf : ∀ a, op = .create a → w.streams a = none) : ∃ ph', Inv prog ({ w with rest := upd w.rest t r }.begin t op) ph' := by
  have hu := h.uses t
  have hl := h.lft t
  have ht := h.text t
  rw [hr] at hu hl ht
  rw [hi] at ht
  have hno : ∀ (x : Nat) (p : Phase), AtPc (upd ph x p) t .idle := fun _ _ => trivial
  cases op with
  | create a =>
    have hs := hf a rfl
    have hpl : (Phase.plain t).opened t = true := by simp [Phase.opened]
    have hp := phase_free h hs
    have hfa := h.fits a
    rw [hp] at hfa
    have e : ({ w with rest := upd w.rest t r } : World).begin t (.create a)
        = { w with streams := upd w.streams a (some {}), rest := upd w.rest t r } := by simp only [World.begin, hs]
    rw [e]
    have c : Change w ph t a (.plain t) { w with streams := upd w.streams a (some {}), rest := upd w.rest t r } :=
      ⟨.inl (by rw [hp]; rfl), .inr rfl, .inl hi, fun x hx => upd_ne _ _ hx, fun _ _ => rfl, fun _ _ _ => rfl,
        fun b _ hb => by rw [hp] at hb; exact (nomatch hb), fun b hb => (nomatch hb), Nat.le_refl _, fun _ _ => rfl,
        fun u hu => upd_ne _ _ hu, fun _ _ => rfl, ⟨⟨_, upd_same ..⟩, hfa.2⟩, by rw [hi]; trivial, h.ok⟩
    refine ⟨_, c.inv h ?_ ?_ ?_⟩
    · rw [opened_upd, hpl]; show Uses _ (upd w.rest t r t); rw [upd_same]; exact hu.2
    · rw [opened_upd, hpl]; show left _ (upd w.rest t r t) = _; rw [upd_same]; exact hl
    · rw [← ht]
      refine congrArg _ ?_
      simp only [hi, Pc.pend, List.nil_append, upd_same]
      refine alone_congr r _ _ _ hu.2 fun x hx => ?_
      by_cases hxa : x = a
      · subst hxa; simp [abs]
      · rw [upd_ne _ _ hxa] at hx ⊢
        exact c.abs_same h hxa hx
  | indent a i =>
    rcases phase_open h hi hu.1 with ⟨hp, tx, hs, htb⟩ | ⟨b, tx, k, hp, hs, htb, hh⟩
    · have e : ({ w with rest := upd w.rest t r } : World).begin t (.indent a i)
          = { w with heap := upd w.heap w.next (some (0, true)), next := w.next + 1, pc := upd w.pc t (.insert a w.next i), rest := upd w.rest t r } := by simp only [World.begin, hs]
      rw [e]
      have hn : w.heap w.next = none := by
        cases hx : w.heap w.next with
        | none => rfl
        | some y =>
          obtain ⟨z, hz⟩ := h.used w.next (by rw [hx]; exact fun e => nomatch e)
          exact absurd (h.fresh z _ hz) (by omega)
      have c : Change w ph t a (.inserting t w.next i) { w with heap := upd w.heap w.next (some (0, true)), next := w.next + 1, pc := upd w.pc t (.insert a w.next i), rest := upd w.rest t r } :=
        ⟨.inr (by rw [hp]; rfl), .inr rfl, .inl hi, fun _ _ => rfl, fun _ _ => rfl,
          fun b _ hb => upd_ne _ _ (fun e => hb (by rw [e]; rfl)),
          fun b _ hb => by rw [hp] at hb; exact (nomatch hb), fun b hb => .inr ⟨(Option.some.inj hb).symm, rfl⟩, Nat.le_succ _,
          fun u hu => upd_ne _ _ hu, fun u hu => upd_ne _ _ hu, fun _ _ => rfl, ⟨⟨tx, hs⟩, htb, upd_same .., upd_same ..⟩,
          by simp [AtPc], h.ok⟩
      have hk := opened_keep ph a t (.inserting t w.next i) (by rw [hp]; rfl)
      refine ⟨_, c.inv h ?_ ?_ ?_⟩
      · rw [hk]; show Uses _ (upd w.rest t r t); rw [upd_same]; exact hu.2
      · rw [hk]; show left _ (upd w.rest t r t) = _; rw [upd_same]; exact hl
      · rw [← ht]
        refine congrArg _ ?_
        simp only [Pc.pend, List.nil_append, upd_same]
        change alone (upd _ a _) r = alone (upd _ a _) r
        refine alone_congr r _ _ _ hu.2 fun x hx => ?_
        by_cases hxa : x = a
        · subst hxa; simp [abs, hs]
        · rw [upd_ne _ _ hxa, upd_ne _ _ hxa]
          exact c.abs_same h hxa hx
    · obtain ⟨d, hd⟩ := indent_some ⟨[], some k⟩ i
      have e : ({ w with rest := upd w.rest t r } : World).begin t (.indent a i)
          = { w with heap := upd w.heap b (Stream.indent ⟨[], some k⟩ i).buf, rest := upd w.rest t r } := by
        simp only [World.begin, hs, World.bump, hh]
      rw [e]
      have c : Change w ph t a (.ready t b) { w with heap := upd w.heap b (Stream.indent ⟨[], some k⟩ i).buf, rest := upd w.rest t r } :=
        ⟨.inr (by rw [hp]; rfl), .inr rfl, .inl hi, fun _ _ => rfl, fun _ _ => rfl,
          fun b' _ hb => upd_ne _ _ (fun e => hb (by rw [e]; rfl)),
          fun b' _ hb => by rw [hp] at hb; exact hb, fun b' hb => .inl (by rw [hp]; exact hb), Nat.le_refl _,
          fun _ _ => rfl, fun u hu => upd_ne _ _ hu, fun _ _ => rfl, ⟨⟨tx, hs⟩, htb, d, (upd_same ..).trans hd⟩,
          by rw [hi]; trivial, h.ok⟩
      have hk := opened_keep ph a t (.ready t b) (by rw [hp])
      refine ⟨_, c.inv h ?_ ?_ ?_⟩
      · rw [hk]; show Uses _ (upd w.rest t r t); rw [upd_same]; exact hu.2
      · rw [hk]; show left _ (upd w.rest t r t) = _; rw [upd_same]; exact hl
      · rw [← ht]
        refine congrArg _ ?_
        simp only [hi, Pc.pend, List.nil_append, upd_same]
        change alone _ r = alone (upd _ a _) r
        refine alone_congr r _ _ _ hu.2 fun x hx => ?_
        by_cases hxa : x = a
        · subst hxa; simp [abs, hs, hh, Stream.indent]
        · rw [upd_ne _ _ hxa]
          exact c.abs_same h hxa hx
  | put a text =>
    rcases phase_open h hi hu.1 with ⟨hp, tx, hs, htb⟩ | ⟨b, tx, k, hp, hs, htb, hh⟩
    · have e : ({ w with rest := upd w.rest t r } : World).begin t (.put a text)
          = { w with streams := upd w.streams a (some ⟨(Stream.put ⟨tx, none⟩ text).text, none, 0⟩), rest := upd w.rest t r } := by
        simp only [World.begin, hs, World.write]
      rw [e]
      have c : Change w ph t a (.plain t)
          { w with streams := upd w.streams a (some ⟨(Stream.put ⟨tx, none⟩ text).text, none, 0⟩), rest := upd w.rest t r } :=
        ⟨.inr (by rw [hp]; rfl), .inr rfl, .inl hi, fun x hx => upd_ne _ _ hx, fun _ _ => rfl, fun _ _ _ => rfl,
          fun b' _ hb => by rw [hp] at hb; exact hb, fun b' hb => (nomatch hb), Nat.le_refl _,
          fun _ _ => rfl, fun u hu => upd_ne _ _ hu, fun _ _ => rfl, ⟨⟨_, upd_same ..⟩, htb⟩, by rw [hi]; trivial, h.ok⟩
      have hk := opened_keep ph a t (.plain t) (by rw [hp])
      refine ⟨_, c.inv h ?_ ?_ ?_⟩
      · rw [hk]; show Uses _ (upd w.rest t r t); rw [upd_same]; exact hu.2
      · rw [hk]; show left _ (upd w.rest t r t) = _; rw [upd_same]; exact hl
      · rw [← ht]
        refine congrArg _ ?_
        simp only [hi, Pc.pend, List.nil_append, upd_same]
        change alone _ r = alone (upd _ a _) r
        refine alone_congr r _ _ _ hu.2 fun x hx => ?_
        by_cases hxa : x = a
        · subst hxa
          have hb : (Stream.put ⟨tx, none⟩ text).buf = none := put_none rfl text
          simp only [abs, upd_same, hs, Option.bind_none]
          generalize Stream.put ⟨tx, none⟩ text = z at hb ⊢
          cases z
          simp only at hb
          rw [hb]
        · rw [upd_ne _ _ hxa]
          exact c.abs_same h hxa hx
    · obtain ⟨d, hd⟩ := put_some (s := ⟨tx, some k⟩) rfl text
      have e : ({ w with rest := upd w.rest t r } : World).begin t (.put a text)
          = { w with streams := upd w.streams a (some ⟨(Stream.put ⟨tx, some k⟩ text).text, some b, 1⟩), heap := upd w.heap b (Stream.put ⟨tx, some k⟩ text).buf, rest := upd w.rest t r } := by
        simp only [World.begin, hs, World.write, hh]
      rw [e]
      have c : Change w ph t a (.ready t b)
          { w with streams := upd w.streams a (some ⟨(Stream.put ⟨tx, some k⟩ text).text, some b, 1⟩), heap := upd w.heap b (Stream.put ⟨tx, some k⟩ text).buf, rest := upd w.rest t r } :=
        ⟨.inr (by rw [hp]; rfl), .inr rfl, .inl hi, fun x hx => upd_ne _ _ hx, fun _ _ => rfl,
          fun b' _ hb => upd_ne _ _ (fun e => hb (by rw [e]; rfl)),
          fun b' _ hb => by rw [hp] at hb; exact hb, fun b' hb => .inl (by rw [hp]; exact hb), Nat.le_refl _,
          fun _ _ => rfl, fun u hu => upd_ne _ _ hu, fun _ _ => rfl, ⟨⟨_, upd_same ..⟩, htb, d, (upd_same ..).trans hd⟩,
          by rw [hi]; trivial, h.ok⟩
      have hk := opened_keep ph a t (.ready t b) (by rw [hp])
      refine ⟨_, c.inv h ?_ ?_ ?_⟩
      · rw [hk]; show Uses _ (upd w.rest t r t); rw [upd_same]; exact hu.2
      · rw [hk]; show left _ (upd w.rest t r t) = _; rw [upd_same]; exact hl
      · rw [← ht]
        refine congrArg _ ?_
        simp only [hi, Pc.pend, List.nil_append, upd_same]
        change alone _ r = alone (upd _ a _) r
        refine alone_congr r _ _ _ hu.2 fun x hx => ?_
        by_cases hxa : x = a
        · subst hxa; simp [abs, hs, hh]
        · rw [upd_ne _ _ hxa]
          exact c.abs_same h hxa hx
  | destroy a =>
    have hopen : ∀ p : Phase, p.opened t = false → (fun x => (upd ph a p x).opened t) = upd (fun x => (ph x).opened t) a false :=
      fun p hp => by rw [opened_upd, hp]
    rcases phase_open h hi hu.1 with ⟨hp, tx, hs, htb⟩ | ⟨b, tx, k, hp, hs, htb, hh⟩
    · have e : ({ w with rest := upd w.rest t r } : World).begin t (.destroy a)
          = { w with out := upd w.out t (w.out t ++ [tx]), pc := upd w.pc t (.release a), rest := upd w.rest t r } := by
        simp only [World.begin, hs]
        rfl
      rw [e]
      have c : Change w ph t a (.releasing t)
          { w with out := upd w.out t (w.out t ++ [tx]), pc := upd w.pc t (.release a), rest := upd w.rest t r } :=
        ⟨.inr (by rw [hp]; rfl), .inr rfl, .inl hi, fun _ _ => rfl, fun _ _ => rfl, fun _ _ _ => rfl,
          fun b' _ hb => by rw [hp] at hb; exact (nomatch hb), fun b' hb => (nomatch hb), Nat.le_refl _,
          fun u hu => upd_ne _ _ hu, fun u hu => upd_ne _ _ hu, fun u hu => upd_ne _ _ hu, ⟨⟨_, hs⟩, htb, upd_same ..⟩,
          by simp [AtPc], h.ok⟩
      refine ⟨_, c.inv h ?_ ?_ ?_⟩
      · rw [hopen _ rfl]; show Uses _ (upd w.rest t r t); rw [upd_same]; exact hu.2
      · rw [hopen _ rfl]; show left _ (upd w.rest t r t) = _; rw [upd_same]; exact hl
      · rw [← ht]
        simp only [Pc.pend, List.nil_append, upd_same, List.append_assoc]
        refine congrArg _ ?_
        show tx :: _ = (abs w a).text :: _
        have : (abs w a).text = tx := by simp [abs, hs]
        rw [this]
        refine congrArg _ (alone_congr r _ _ _ hu.2 fun x hx => ?_)
        by_cases hxa : x = a
        · subst hxa; simp at hx
        · rw [upd_ne _ _ hxa] at hx
          exact c.abs_same h hxa hx
    · have e : ({ w with rest := upd w.rest t r } : World).begin t (.destroy a)
          = { w with out := upd w.out t (w.out t ++ [tx]), pc := upd w.pc t (.look a 1), rest := upd w.rest t r } := by
        simp only [World.begin, hs]
        rfl
      rw [e]
      have c : Change w ph t a (.looking t b)
          { w with out := upd w.out t (w.out t ++ [tx]), pc := upd w.pc t (.look a 1), rest := upd w.rest t r } :=
        ⟨.inr (by rw [hp]; rfl), .inr rfl, .inl hi, fun _ _ => rfl, fun _ _ => rfl, fun _ _ _ => rfl,
          fun b' _ hb => by rw [hp] at hb; exact hb, fun b' hb => .inl (by rw [hp]; exact hb), Nat.le_refl _,
          fun u hu => upd_ne _ _ hu, fun u hu => upd_ne _ _ hu, fun u hu => upd_ne _ _ hu, ⟨⟨_, hs⟩, htb, ⟨k, hh⟩, upd_same ..⟩,
          by simp [AtPc], h.ok⟩
      refine ⟨_, c.inv h ?_ ?_ ?_⟩
      · rw [hopen _ rfl]; show Uses _ (upd w.rest t r t); rw [upd_same]; exact hu.2
      · rw [hopen _ rfl]; show left _ (upd w.rest t r t) = _; rw [upd_same]; exact hl
      · rw [← ht]
        simp only [Pc.pend, List.nil_append, upd_same, List.append_assoc]
        refine congrArg _ ?_
        show tx :: _ = (abs w a).text :: _
        have : (abs w a).text = tx := by simp [abs, hs]
        rw [this]
        refine congrArg _ (alone_congr r _ _ _ hu.2 fun x hx => ?_)
        by_cases hxa : x = a
        · subst hxa; simp at hx
        · rw [upd_ne _ _ hxa] at hx
          exact c.abs_same h hxa hx

theorem reach_inv {prog w} (hp : OwnStreams prog) (h : Reach prog w) : ∃ ph, Inv prog w ph := by
  induction h with
  | start => exact ⟨_, inv_start prog hp⟩
  | step _ n ih =>
    obtain ⟨ph, hi⟩ := ih
    cases n with
    | begin hpc hr hf => exact begin_inv hi hpc hr hf
    | «continue» hpc => exact continue_inv hi hpc

/-! ### C105 -/

/-- C105. Whatever the interleaving of threads that use streams of their own, no stream or indent buffer is used before it exists or
after it is deleted, and no buffer is deleted twice. -/
theorem buffers_never_misused {prog w} (hp : OwnStreams prog) (h : Reach prog w) : w.fault = false :=
  (reach_inv hp h).elim fun _ hi => hi.ok

/-- C105. Every buffer that exists belongs to exactly one stream that exists — or is about to, in the step that installs it —, and
every entry of the table is for a stream that exists: nothing is lost. -/
theorem buffers_are_owned {prog w} (hp : OwnStreams prog) (h : Reach prog w) :
    (∀ b, w.heap b ≠ none → ∃ a, w.streams a ≠ none ∧ (w.table a = some b ∨ ∃ t i, w.pc t = .insert a b i))
    ∧ (∀ a b, w.table a = some b → w.streams a ≠ none)
    ∧ ∀ a a' b, w.heap b ≠ none → w.table a = some b → w.table a' = some b →
        (∀ t n, w.pc t ≠ .erase a n ∧ w.pc t ≠ .erase a' n) → a = a' := by
  obtain ⟨ph, hi⟩ := reach_inv hp h
  refine ⟨fun b hb => ?_, fun a b hab => ?_, fun a a' b hb ha ha' hne => ?_⟩
  · obtain ⟨a, ha⟩ := hi.used b hb
    refine ⟨a, ?_⟩
    have hf := hi.fits a
    revert ha hf
    cases ph a <;> simp only [Phase.buf, Fits] <;> intro ha hf
    all_goals first
      | (simp at ha; done)
      | (have e := Option.some.inj ha; subst e)
    · obtain ⟨⟨tx, h1⟩, h2, h3, h4⟩ := hf
      exact ⟨by rw [h1]; exact (fun e => nomatch e), .inr ⟨_, _, h4⟩⟩
    all_goals
      obtain ⟨⟨tx, h1⟩, h2, _⟩ := hf
      exact ⟨by rw [h1]; exact (fun e => nomatch e), .inl h2⟩
  · have hf := hi.fits a
    intro hs
    rw [phase_free hi hs] at hf
    rw [hf.2] at hab
    exact nomatch hab
  · have key : ∀ x, w.table x = some b → (∀ t n, w.pc t ≠ .erase x n) → (ph x).buf = some b := by
      intro x hx he
      have hf := hi.fits x
      revert hf
      cases ph x <;> simp only [Phase.buf, Fits, hx] <;> intro hf
      all_goals first
        | (exact absurd hf.2.2 (he _ _))
        | (simp at hf; done)
        | (exact hf.2.1.symm)
    exact hi.inj a a' b (key a ha fun t n => (hne t n).1) (key a' ha' fun t n => (hne t n).2)

/-- C105. When every thread is done and destroyed what it constructed, no buffer is left and the table is empty. -/
theorem buffers_all_deleted {prog w} (hp : OwnStreams prog) (h : Reach prog w) (he : Ended w) (hc : Cleans prog) :
    (∀ b, w.heap b = none) ∧ (∀ a, w.table a = none) ∧ ∀ a, w.streams a = none := by
  obtain ⟨ph, hi⟩ := reach_inv hp h
  have hab : ∀ a, ph a = .absent := by
    intro a
    have hl : ∀ t, (ph a).opened t = false := by
      intro t
      have := congrFun (hi.lft t) a
      rw [(he t).2, hc t a] at this
      exact this
    have hf := hi.fits a
    revert hl hf
    cases ph a <;> simp only [Phase.opened, Fits, (he _).1] <;> intro hl hf
    all_goals first
      | exact absurd rfl (of_decide_eq_false (hl _))
      | (exfalso; simp at hf; done)
      | trivial
  refine ⟨fun b => ?_, fun a => ?_, fun a => ?_⟩
  · cases hb : w.heap b with
    | none => rfl
    | some c =>
      obtain ⟨a, ha⟩ := hi.used b (by rw [hb]; exact fun e => nomatch e)
      rw [hab a] at ha
      exact nomatch ha
  · have := hi.fits a; rw [hab a] at this; exact this.2
  · have := hi.fits a; rw [hab a] at this; exact this.1

/-- C105. What the streams of a thread held is what they hold when it is alone and each stream has its indentation in itself. -/
theorem texts_as_alone {prog w} (hp : OwnStreams prog) (h : Reach prog w) (t : Nat) (hd : w.pc t = .idle ∧ w.rest t = []) :
    w.out t = alone (fun _ => {}) (prog t) := by
  obtain ⟨ph, hi⟩ := reach_inv hp h
  have := hi.text t
  rw [hd.1, hd.2] at this
  simpa [Pc.pend, alone] using this

/-! ### Examples -/

/-- Two threads: one stream each with a buffer and one without; the second thread uses an address twice. -/
def exProg : Nat → List Op
  | 0 => [.create 1, .put 1 "x\n".toList, .indent 1 2, .put 1 "a\nb\n".toList, .indent 1 (-2), .put 1 "c".toList, .destroy 1]
  | 1 => [.create 2, .create 3, .indent 2 2, .put 3 "z".toList, .put 2 "u\n".toList, .destroy 2, .create 2, .put 2 "v".toList, .destroy 3,
          .destroy 2]
  | _ => []

example : OwnStreams exProg := by
  intro t
  match t with
  | 0 => simp [exProg, Uses, upd]
  | 1 => simp [exProg, Uses, upd]
  | _ + 2 => trivial

example : Cleans exProg := by
  intro t a
  match t with
  | 0 => simp only [exProg, left, upd]; split <;> simp
  | 1 => simp only [exProg, left, upd]; (repeat' split) <;> simp_all
  | _ + 2 => rfl

/-- Both threads share a stream. -/
def sharedProg : Nat → List Op
  | 0 => [.create 1, .indent 1 2, .destroy 1]
  | 1 => [.indent 1 2]
  | _ => []

/-- One round: which thread steps. -/
def go (w : World) (t : Nat) : World :=
  match w.pc t with
  | .idle =>
    match w.rest t with
    | [] => w
    | op :: r => { w with rest := upd w.rest t r }.begin t op
  | p => w.continue t p

theorem go_reach {prog w} (h : Reach prog w) (t : Nat)
    (hf : ∀ a r, w.pc t = .idle → w.rest t = .create a :: r → w.streams a = none) : Reach prog (go w t) := by
  unfold go
  cases hp : w.pc t with
  | idle =>
    cases hr : w.rest t with
    | nil => exact h
    | cons op r => exact h.step (.begin hp hr fun a e => hf a r hp (by rw [hr, e]))
  | _ =>
    have n := h.step (.continue (t := t) (by rw [hp]; exact fun e => nomatch e))
    rw [hp] at n
    exact n

/-- A run by a list of threads, which ends as soon as a stream would be constructed where one is. -/
def goes (w : World) : List Nat → World
  | [] => w
  | t :: ts =>
    match w.pc t, w.rest t with
    | .idle, .create a :: _ => if (w.streams a).isNone then goes (go w t) ts else w
    | _, _ => goes (go w t) ts

theorem goes_reach {prog} : ∀ (ts : List Nat) (w : World), Reach prog w → Reach prog (goes w ts)
  | [], _, h => h
  | t :: ts, w, h => by
    simp only [goes]
    split
    · rename_i a r hp hr
      split
      · rename_i hn
        refine goes_reach ts _ (go_reach h t fun b r' _ e => ?_)
        rw [hr] at e
        cases e
        simpa using hn
      · exact h
    · rename_i hne
      exact goes_reach ts _ (go_reach h t fun b r' hp hr => absurd hr (hne b r' hp))

/-- A run of the two threads to the end: a buffer each was there, none is left, and the texts are the expected ones. -/
theorem exProg_ends : ∃ w, Reach exProg w ∧ (∀ t, t < 2 → w.pc t = .idle ∧ w.rest t = []) ∧ w.next = 2
    ∧ w.out 0 = ["x\n  a\n  b\nc".toList] ∧ w.out 1 = ["  u\n".toList, "z".toList, "v".toList] := by
  refine ⟨goes { rest := exProg } ([0, 1, 0, 1, 0, 1, 0, 1, 0, 1, 0, 1, 0, 1, 0, 1] ++ List.replicate 16 0 ++ List.replicate 20 1),
    goes_reach _ _ .start, ?_⟩
  decide +kernel

/-- C105. Without streams of their own, threads use what is deleted. -/
theorem shared_stream_misused : ∃ w, Reach sharedProg w ∧ w.fault = true := by
  refine ⟨goes { rest := sharedProg } [0, 0, 0, 0, 0, 0, 0, 0, 0, 0, 0, 0, 1], goes_reach _ _ .start, ?_⟩
  decide +kernel

/-- Two buffers are installed, and the table keeps one: the other is never deleted. -/
theorem shared_stream_leaks : ∃ w, Reach sharedProg w ∧ Ended w ∧ w.fault = false ∧ ∃ b, w.heap b ≠ none := by
  refine ⟨goes { rest := sharedProg } [0, 0, 1, 0, 1, 0, 1, 0, 1, 0, 0, 0, 0, 0, 0, 0, 0, 0, 0, 0], goes_reach _ _ .start, ?_, ?_, 1, ?_⟩
  · intro t
    match t with
    | 0 => decide +kernel
    | 1 => decide +kernel
    | n + 2 => exact ⟨rfl, rfl⟩
  · decide +kernel
  · decide +kernel

end Verif.Ind
