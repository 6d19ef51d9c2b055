import Verif.Spec.Context
/-!
C39 (memory types), C40 (dispatch), C42 (live objects).
-/
namespace Verif.Ctx

/-! ## C39 -/

theorem and_eq_right_iff (f r : Nat) :
    f &&& r = r ↔ ∀ b, r.testBit b = true → f.testBit b = true := by
  constructor
  · intro h b hb
    have := congrArg (fun n => n.testBit b) h
    simp only [Nat.testBit_and, hb, Bool.and_true] at this
    exact this
  · intro h
    apply Nat.eq_of_testBit_eq
    intro b
    rw [Nat.testBit_and]
    cases hr : r.testBit b with
    | false => simp
    | true => simp [h b hr]

theorem and_one_iff (m : Nat) : m &&& 1 = 1 ↔ m.testBit 0 = true := by
  rw [Nat.and_one_is_mod, Nat.testBit_zero]
  simp

theorem suitable_succ (f : Nat) (fs : List Nat) (m r i : Nat) :
    Suitable (f :: fs) m r (i + 1) ↔ Suitable fs (m >>> 1) r i := by
  simp [Suitable, Nat.add_comm]

theorem suitable_zero (f : Nat) (fs : List Nat) (m r : Nat) :
    Suitable (f :: fs) m r 0 ↔ (m &&& 1 = 1 ∧ f &&& r = r) := by
  rw [and_one_iff, and_eq_right_iff]
  simp [Suitable]

theorem deduceFrom_spec (fs : List Nat) (k m r : Nat) :
    (∀ i, deduceFrom k m r fs = some i ↔
      k ≤ i ∧ Suitable fs m r (i - k) ∧ ∀ j, j < i - k → ¬ Suitable fs m r j) ∧
    (deduceFrom k m r fs = none ↔ ∀ i, ¬ Suitable fs m r i) := by
  induction fs generalizing k m with
  | nil => simp [deduceFrom, Suitable]
  | cons f fs ih =>
    obtain ⟨ih1, ih2⟩ := ih (k + 1) (m >>> 1)
    simp only [deduceFrom]
    by_cases hc : m &&& 1 = 1 ∧ f &&& r = r
    · have h0 := (suitable_zero f fs m r).mpr hc
      simp only [hc, and_self, if_true]
      refine ⟨fun i => ⟨fun e => ?_, fun e => ?_⟩, ?_⟩
      · have : k = i := by simpa using e
        subst this
        refine ⟨Nat.le_refl _, by simpa using h0, fun j hj => by omega⟩
      · obtain ⟨h1, _, h3⟩ := e
        by_cases hk : k = i
        · rw [hk]
        · exact absurd h0 (h3 0 (by omega))
      · constructor
        · intro h; simp at h
        · intro h; exact absurd h0 (h 0)
    · have h0 : ¬ Suitable (f :: fs) m r 0 := fun h => hc ((suitable_zero f fs m r).mp h)
      simp only [hc, if_false]
      refine ⟨fun i => ?_, ?_⟩
      · rw [ih1 i]
        constructor
        · rintro ⟨h1, h2, h3⟩
          have e : i - k = i - (k + 1) + 1 := by omega
          refine ⟨by omega, by rw [e, suitable_succ]; exact h2, fun j hj => ?_⟩
          cases j with
          | zero => exact h0
          | succ j => rw [suitable_succ]; exact h3 j (by omega)
        · rintro ⟨h1, h2, h3⟩
          have hk : k ≠ i := by
            rintro rfl
            simp only [Nat.sub_self] at h2
            exact h0 h2
          have e : i - k = i - (k + 1) + 1 := by omega
          refine ⟨by omega, by rw [e, suitable_succ] at h2; exact h2, fun j hj hs => ?_⟩
          exact h3 (j + 1) (by omega) ((suitable_succ ..).mpr hs)
      · rw [ih2]
        constructor
        · intro h i
          cases i with
          | zero => exact h0
          | succ i => rw [suitable_succ]; exact h i
        · intro h i hs
          exact h (i + 1) ((suitable_succ ..).mpr hs)

/-- **C39**: `deduceMemoryType` returns `i` exactly if `i` is the lowest memory type that the mask
allows and that has all required properties; it throws exactly if there is none. -/
theorem deduces_lowest_suitable (types : List Nat) (mask req : Nat) :
    (∀ i, deduceMemoryType types mask req = some i ↔
      Suitable types mask req i ∧ ∀ j, j < i → ¬ Suitable types mask req j) ∧
    (deduceMemoryType types mask req = none ↔ ∀ i, ¬ Suitable types mask req i) := by
  have := deduceFrom_spec types 0 mask req
  simpa [deduceMemoryType] using this

/-- Device local, host visible, host visible and coherent; the mask excludes the second. -/
theorem example_deduce : deduceMemoryType [1, 2, 6] 0b101 2 = some 2 ∧
    deduceMemoryType [1, 2, 6] 0b011 4 = none := by decide

/-! ## C40 -/

/-- **C40** (partial): without callback for Y and Z, the three configured counts are dispatched; an
indirect buffer replaces them. Missing: callbacks for Y or Z (`dispatch_wrong`,
`dispatch_undefined`). -/
theorem dispatch_configured_partial (c : Config) (hy : c.getY = none) (hz : c.getZ = none) :
    dispatch c =
      match c.indirect with
      | some (b + 1, o) => .indirect (b + 1) o
      | _ => .direct (configured c.getX c.countX) (configured c.getY c.countY)
          (configured c.getZ c.countZ) := by
  obtain ⟨cx, cy, cz, gx, gy, gz, ib⟩ := c
  simp only at hy hz
  subst hy hz
  cases ib with
  | none => cases gx <;> simp [dispatch, configured, count]
  | some p =>
    obtain ⟨b, o⟩ := p
    cases b <;> cases gx <;> simp [dispatch, configured, count]

/-- **C40**, exactly: what is dispatched whatever the configuration, without indirect buffer: the
callbacks given for Y and Z are never called, the one of X is instead. -/
theorem dispatch_exact (c : Config) (h : c.indirect = none) (x y z : Nat) :
    dispatch c = .direct x y z ↔
      x = configured c.getX c.countX ∧
      (c.getY = none → y = configured none c.countY) ∧ (c.getY ≠ none → c.getX = some y) ∧
      (c.getZ = none → z = configured none c.countZ) ∧ (c.getZ ≠ none → c.getX = some z) := by
  obtain ⟨cx, cy, cz, gx, gy, gz, ib⟩ := c
  simp only at h
  subst h
  cases gx <;> cases gy <;> cases gz <;> simp [dispatch, configured, count, eq_comm]

/-- **Negation**: with three callbacks, the three components dispatched are the value of the first. -/
theorem dispatch_wrong (x y z : Nat) (h : x ≠ y) :
    dispatch { getX := some x, getY := some y, getZ := some z } = .direct x x x ∧
    dispatch { getX := some x, getY := some y, getZ := some z } ≠
      .direct (configured (some x) none) (configured (some y) none) (configured (some z) none) := by
  simp [dispatch, configured, h]

/-- **Negation**: a callback for Y and none for X: an empty optional is dereferenced. -/
theorem dispatch_undefined (c : Config) (h : c.indirect = none) (hx : c.getX = none)
    (hy : c.getY ≠ none) : dispatch c = .undefined := by
  obtain ⟨cx, cy, cz, gx, gy, gz, ib⟩ := c
  simp only at h hx hy
  subst h hx
  cases gy with
  | none => exact absurd rfl hy
  | some y => cases gz <;> simp [dispatch]

/-! ## C42 -/

theorem objects_filter (m : Registry) (v t : Nat) (h : ∀ e ∈ m.objects, e.1.1 = v → e.1.2 = t) :
    Registry.objects (m.filter fun e => e.1 != v) = m.objects.filter fun e => e.1 != (v, t) := by
  induction m with
  | nil => rfl
  | cons e m ih =>
    have ih := ih fun e he => h e (List.mem_cons_of_mem _ he)
    have he := h ((e.1, e.2.1), e.2.2) List.mem_cons_self
    by_cases hv : e.1 = v
    · have ht : e.2.1 = t := he hv
      simpa [Registry.objects, List.filter_cons, hv, ht] using ih
    · have hn : ¬ ((e.1, e.2.1) = (v, t)) := by simp [hv]
      simp only [Registry.objects, List.map_cons, List.filter_cons] at ih ⊢
      simp [hv, ih]

/-- **C42** (partial): as long as handles are not null and live objects have different handle
values, the context holds, after any history, exactly the objects registered and not yet
unregistered, with the last name given. Missing: objects of different types with the same value
(`same_value_forgotten`), null handles (`null_never_removed`). -/
theorem report_exact_partial (ops : List Op) (h : Distinct [] ops) :
    (ops.foldl Registry.apply []).objects = ops.foldl live [] := by
  have key : ∀ (m : Registry), (∀ e ∈ m.objects, e.1.1 ≠ 0) → Distinct m.objects ops →
      (ops.foldl Registry.apply m).objects = ops.foldl live m.objects := by
    clear h
    induction ops with
    | nil => intro m _ _; rfl
    | cons o os ih =>
      intro m h0 hd
      simp only [List.foldl_cons]
      have step : (m.apply o).objects = live m.objects o := by
        cases o with
        | register v t n =>
          have := objects_filter m v t hd.1.2
          simp only [Registry.apply, live, ← this]
          simp [Registry.objects]
        | unregister v t =>
          have := objects_filter m v t hd.1
          simp only [Registry.apply, live, ← this]
          split
          case isTrue hv =>
            subst hv
            rw [List.filter_eq_self.mpr]
            intro e he
            have := h0 ((e.1, e.2.1), e.2.2) (List.mem_map.mpr ⟨e, he, rfl⟩)
            simpa using this
          case isFalse => rfl
      rw [ih (m.apply o) _ (by rw [step]; exact hd.2), step]
      rw [step]
      cases o with
      | register v t n =>
        intro e he
        rcases List.mem_append.mp he with he | he
        · exact h0 e (List.mem_filter.mp he).1
        · have : e = ((v, t), n) := by simpa using he
          rw [this]; exact hd.1.1
      | unregister v t => exact fun e he => h0 e (List.mem_filter.mp he).1
  exact key [] (by simp [Registry.objects]) h

/-- A history with re-used and renamed handles. -/
theorem example_history :
    Distinct [] [.register 5 1 10, .register 6 2 11, .unregister 5 1, .register 5 2 12,
      .register 6 2 13, .unregister 9 1] ∧
    ([Op.register 5 1 10, .register 6 2 11, .unregister 5 1, .register 5 2 12,
      .register 6 2 13, .unregister 9 1].foldl live []) = [((5, 2), 12), ((6, 2), 13)] := by
  simp [Distinct, live, List.filter_cons]

/-- **Negation**: two objects of different types may have the same handle value; unregistering one
forgets the other, which is then missing from the report. -/
theorem same_value_forgotten (v t t' n n' : Nat) (hv : v ≠ 0) (ht : t ≠ t') :
    ([Op.register v t n, .register v t' n', .unregister v t].foldl Registry.apply []).objects = [] ∧
    [Op.register v t n, .register v t' n', .unregister v t].foldl live [] = [((v, t'), n')] := by
  have ht' : ¬ t' = t := fun h => ht h.symm
  simp [Registry.apply, Registry.objects, live, List.filter_cons, hv, ht, ht']

/-- **Negation**: a null handle that was registered is reported for ever. -/
theorem null_never_removed (t n : Nat) :
    ([Op.register 0 t n, .unregister 0 t].foldl Registry.apply []).objects = [((0, t), n)] ∧
    [Op.register 0 t n, .unregister 0 t].foldl live [] = [] := by
  simp [Registry.apply, Registry.objects, live, List.filter_cons]

end Verif.Ctx
