import Verif.Spec.Allocation
import Verif.Props.Context
/-
C95: the memory of images and quad vertex buffers.
-/
namespace Verif.Mem

theorem memory_type_exact (d : Device) (typeBits wanted : Nat) :
    (∀ t, d.deduceMemoryType typeBits wanted = some t ↔
      Suitable d typeBits wanted t ∧ ∀ u, u < t → ¬ Suitable d typeBits wanted u) ∧
    (d.deduceMemoryType typeBits wanted = none ↔ ∀ t, ¬ Suitable d typeBits wanted t) :=
  Ctx.deduces_lowest_suitable d.memoryTypes typeBits wanted

/-! ## Calls -/

theorem suitable_lt {d : Device} {b w t : Nat} (h : Suitable d b w t) : t < d.memoryTypes.length := by
  obtain ⟨f, hf, _, _⟩ := h
  exact (List.getElem?_eq_some_iff.1 hf).1

theorem allAllowed_nil (d : Device) (r : Requirements) : AllAllowed d r [] := by
  intro b c a h
  cases b <;> cases h

/-- Adding a call at the end. -/
theorem AllAllowed.snoc {d : Device} {r : Requirements} {cs : List Call} {c : Call} (h : AllAllowed d r cs)
    (hc : Allowed d r (track cs) c) : AllAllowed d r (cs ++ [c]) := by
  intro b x a he
  rcases List.eq_nil_or_concat a with rfl | ⟨a', y, rfl⟩
  · have := List.append_inj' he rfl
    obtain ⟨rfl, hx⟩ := this
    cases hx
    exact hc
  · have he' : cs ++ [c] = (b ++ x :: a') ++ [y] := by simpa using he
    obtain ⟨rfl, _⟩ := List.append_inj' he' rfl
    exact h b x a' rfl

theorem track_snoc (cs : List Call) (c : Call) : track (cs ++ [c]) = (track cs).step c := by
  simp [track, List.foldl_append]

theorem allowed_allocate {d : Device} {r : Requirements} {w t : Nat} (hr : 0 < r.size)
    (ht : Suitable d r.typeBits w t) : AllAllowed d r [.allocate r.size t] :=
  (allAllowed_nil d r).snoc ⟨hr, suitable_lt ht⟩

theorem allowed_bind {d : Device} {r : Requirements} {w t : Nat} (hr : 0 < r.size)
    (ht : Suitable d r.typeBits w t) : AllAllowed d r [.allocate r.size t, .bind 0] :=
  (allowed_allocate hr ht).snoc (cs := [.allocate r.size t])
    ⟨rfl, r.size, t, rfl, hr, Nat.le_refl _, Nat.dvd_zero _, ht.choose_spec.2.1⟩

/-- C95, images: whatever the driver answers, each call is allowed; without an exception the memory bound is the first
device local type the driver allows for the image, and large enough; nothing is asked for, and an exception is thrown, when
there is no such type. -/
theorem image_memory (d : Device) (r : Requirements) (a : Answers) (hr : 0 < r.size) :
    AllAllowed d r (imageMemory d r a).calls ∧
    ((imageMemory d r a).thrown = false → ∃ t, Suitable d r.typeBits deviceLocal t ∧
      (∀ u, u < t → ¬ Suitable d r.typeBits deviceLocal u) ∧
      (track (imageMemory d r a).calls).memory = some (r.size, t) ∧
      (track (imageMemory d r a).calls).bound = some 0) ∧
    ((imageMemory d r a).calls = [] ↔ ∀ t, ¬ Suitable d r.typeBits deviceLocal t) ∧
    ((imageMemory d r a).thrown = true ↔
      (∀ t, ¬ Suitable d r.typeBits deviceLocal t) ∨ a.allocated = false ∨ a.bound = false) := by
  have hx := memory_type_exact d r.typeBits deviceLocal
  cases hd : d.deduceMemoryType r.typeBits deviceLocal with
  | none =>
    have hn := hx.2.1 hd
    have ho : imageMemory d r a = ⟨[], true⟩ := by unfold imageMemory; rw [hd]
    rw [ho]
    exact ⟨allAllowed_nil d r, fun h => (by cases h), ⟨fun _ => hn, fun _ => rfl⟩, ⟨fun _ => Or.inl hn, fun _ => rfl⟩⟩
  | some t =>
    obtain ⟨ht, hf⟩ := (hx.1 t).1 hd
    have hne : ¬ ∀ t, ¬ Suitable d r.typeBits deviceLocal t := fun h => h t ht
    have ho : imageMemory d r a = (if a.allocated then
      if a.bound then ⟨[.allocate r.size t, .bind 0], false⟩
      else ⟨[.allocate r.size t, .bind 0], true⟩
      else ⟨[.allocate r.size t], true⟩) := by unfold imageMemory; rw [hd]
    rw [ho]
    rcases a with ⟨al, bo, _, _⟩
    cases al <;> cases bo <;> simp [hne, allowed_allocate hr ht, allowed_bind hr ht]
    exact ⟨t, ht, hf, rfl, rfl⟩

/-- C95: on a device that has, for each image, a device local type among those it allows (Vulkan requires it) and that
refuses nothing, image memory never fails. -/
theorem image_memory_succeeds (d : Device) (r : Requirements) (a : Answers) (hr : 0 < r.size)
    (hv : ∃ t, Suitable d r.typeBits deviceLocal t) (ha : a.allocated = true) (hb : a.bound = true) :
    (imageMemory d r a).thrown = false := by
  cases ht : (imageMemory d r a).thrown with
  | false => rfl
  | true =>
    rcases (image_memory d r a hr).2.2.2.1 ht with h | h | h
    · obtain ⟨t, ht⟩ := hv; exact absurd ht (h t)
    · simp [ha] at h
    · simp [hb] at h

/-! ## Vertex buffers -/

theorem track_append (xs ys : List Call) : track (xs ++ ys) = ys.foldl Track.step (track xs) := by
  simp [track, List.foldl_append]

/-- Writes that fit are allowed while the memory is mapped at 0. -/
theorem allowed_writes {d : Device} {r : Requirements} {n t : Nat} : ∀ (ws : List (Nat × Int)) (cs : List Call),
    AllAllowed d r cs → (track cs).mapped = some 0 → (track cs).memory = some (n, t) → (∀ w ∈ ws, w.1 + 4 ≤ n) →
    AllAllowed d r (cs ++ ws.map (fun w => Call.write w.1 w.2)) ∧
    track (cs ++ ws.map (fun w => Call.write w.1 w.2)) = { track cs with host := ws.reverse ++ (track cs).host }
  | [], cs, h, _, _, _ => by simp [h]
  | w :: ws, cs, h, hm, hn, hw => by
    have hc : Allowed d r (track cs) (.write w.1 w.2) :=
      ⟨0, n, t, hm, hn, by have := hw w (List.mem_cons_self ..); omega⟩
    have h1 := h.snoc hc
    have ht : track (cs ++ [Call.write w.1 w.2]) = { track cs with host := w :: (track cs).host } := by
      rw [track_snoc]; simp [Track.step, hm]
    obtain ⟨a1, a2⟩ := allowed_writes (n := n) (t := t) ws (cs ++ [Call.write w.1 w.2]) h1 (by rw [ht]; exact hm)
      (by rw [ht]; exact hn) (fun w' hw' => hw w' (List.mem_cons_of_mem _ hw'))
    have e : cs ++ (w :: ws).map (fun w => Call.write w.1 w.2) =
        (cs ++ [Call.write w.1 w.2]) ++ ws.map (fun w => Call.write w.1 w.2) := by simp
    rw [e]
    refine ⟨a1, ?_⟩
    rw [a2, ht]
    simp

/-- The floats of the quad, by address. -/
def floats (iu iv : Bool) : List (Nat × Int) :=
  (layoutFrom 0 (Res.quadVertices iu iv)).filterMap fun | .write o v => some (o, v) | _ => none

theorem floats_eq (iu iv : Bool) :
    layoutFrom 0 (Res.quadVertices iu iv) = (floats iu iv).map (fun w => Call.write w.1 w.2) := by
  cases iu <;> cases iv <;> decide

theorem floats_fit (iu iv : Bool) : ∀ w ∈ floats iu iv, w.1 + 4 ≤ quadBufferSize := by
  cases iu <;> cases iv <;> decide

theorem flush_all (ws : List (Nat × Int)) : ws.filter (fun w => decide (0 ≤ w.1)) = ws := by
  simp

/-- The calls when nothing is refused, and where they lead. -/
theorem quad_calls {d : Device} {r : Requirements} {t : Nat} (iu iv : Bool) (hr : quadBufferSize ≤ r.size)
    (ht : Suitable d r.typeBits hostVisible t) :
    AllAllowed d r [.allocate r.size t, .bind 0, .map 0] ∧
    AllAllowed d r ([.allocate r.size t, .bind 0, .map 0] ++ layoutFrom 0 (Res.quadVertices iu iv) ++ [.flush 0, .unmap]) ∧
    track ([.allocate r.size t, .bind 0, .map 0] ++ layoutFrom 0 (Res.quadVertices iu iv) ++ [.flush 0, .unmap]) =
      ⟨some (r.size, t), some 0, none, (floats iu iv).reverse, (floats iu iv).reverse⟩ := by
  have h0 : 0 < r.size := Nat.lt_of_lt_of_le (by decide) hr
  have hh : ∃ flags, d.memoryTypes[t]? = some flags ∧ flags.testBit 1 = true := by
    obtain ⟨f, hf, _, hb⟩ := ht
    exact ⟨f, hf, hb 1 (by decide)⟩
  obtain ⟨f, hf, hb⟩ := hh
  have h1 : AllAllowed d r [.allocate r.size t, .bind 0, .map 0] :=
    (allowed_bind h0 ht).snoc (cs := [.allocate r.size t, .bind 0]) ⟨rfl, r.size, t, f, rfl, h0, hf, hb⟩
  obtain ⟨h2, e2⟩ := allowed_writes (n := r.size) (t := t) (floats iu iv) _ h1 rfl rfl
    (fun w hw => Nat.le_trans (floats_fit iu iv w hw) hr)
  have h3 := h2.snoc (c := .flush 0) ⟨0, by rw [e2]; rfl, Nat.le_refl _⟩
  have h4 := h3.snoc (c := .unmap) (by
    show (track _).mapped ≠ none
    rw [track_snoc, e2]; simp [Track.step, track])
  have e : [.allocate r.size t, .bind 0, .map 0] ++ layoutFrom 0 (Res.quadVertices iu iv) ++ [.flush 0, .unmap] =
      [.allocate r.size t, .bind 0, .map 0] ++ (floats iu iv).map (fun w => Call.write w.1 w.2) ++ [.flush 0] ++ [.unmap] := by
    rw [floats_eq]; simp
  refine ⟨h1, by rw [e]; exact h4, ?_⟩
  rw [e, track_snoc, track_snoc, e2]
  simp [Track.step, track]

/-- C95, quad vertex buffers: whatever the driver answers, each call is allowed (the vertices fit in what was allocated,
the memory is host visible and mapped while it is written); without an exception the memory bound is the first host visible
type the driver allows; nothing is asked for, and an exception is thrown, when there is none. Vulkan requires that the
memory of a buffer is not smaller than the buffer. -/
theorem quad_memory (d : Device) (r : Requirements) (a : Answers) (iu iv : Bool) (hr : quadBufferSize ≤ r.size) :
    AllAllowed d r (quadMemory d r a iu iv).calls ∧
    ((quadMemory d r a iu iv).thrown = false → ∃ t, Suitable d r.typeBits hostVisible t ∧
      (∀ u, u < t → ¬ Suitable d r.typeBits hostVisible u) ∧
      (track (quadMemory d r a iu iv).calls).memory = some (r.size, t) ∧
      (track (quadMemory d r a iu iv).calls).bound = some 0) ∧
    ((quadMemory d r a iu iv).calls = [] ↔ ∀ t, ¬ Suitable d r.typeBits hostVisible t) ∧
    ((quadMemory d r a iu iv).thrown = true ↔
      (∀ t, ¬ Suitable d r.typeBits hostVisible t) ∨ a.allocated = false ∨ a.bound = false ∨ a.mapped = false) := by
  have h0 : 0 < r.size := Nat.lt_of_lt_of_le (by decide) hr
  have hx := memory_type_exact d r.typeBits hostVisible
  cases hd : d.deduceMemoryType r.typeBits hostVisible with
  | none =>
    have hn := hx.2.1 hd
    have ho : quadMemory d r a iu iv = ⟨[], true⟩ := by unfold quadMemory; rw [hd]
    rw [ho]
    exact ⟨allAllowed_nil d r, fun h => (by cases h), ⟨fun _ => hn, fun _ => rfl⟩, ⟨fun _ => Or.inl hn, fun _ => rfl⟩⟩
  | some t =>
    obtain ⟨ht, hf⟩ := (hx.1 t).1 hd
    have hne : ¬ ∀ t, ¬ Suitable d r.typeBits hostVisible t := fun h => h t ht
    obtain ⟨q1, q2, q3⟩ := quad_calls iu iv hr ht
    have ho : quadMemory d r a iu iv = (if a.allocated then
      if a.bound then
        if a.mapped then
          if a.pointer then
            ⟨[.allocate r.size t, .bind 0, .map 0] ++ layoutFrom 0 (Res.quadVertices iu iv) ++ [.flush 0, .unmap], false⟩
          else ⟨[.allocate r.size t, .bind 0, .map 0], false⟩
        else ⟨[.allocate r.size t, .bind 0, .map 0], true⟩
      else ⟨[.allocate r.size t, .bind 0], true⟩
      else ⟨[.allocate r.size t], true⟩) := by unfold quadMemory; rw [hd]
    rw [ho]
    rcases a with ⟨al, bo, ma, po⟩
    cases al
    · simp [hne, allowed_allocate h0 ht]
    cases bo
    · simp [hne, allowed_bind h0 ht]
    cases ma
    · simp [hne, q1]
    cases po
    · refine ⟨q1, fun _ => ⟨t, ht, hf, rfl, rfl⟩, by simp [hne], by simp [hne]⟩
    · refine ⟨q2, fun _ => ⟨t, ht, hf, ?_, ?_⟩, by simp [hne], by simp [hne]⟩
      · exact congrArg Track.memory q3
      · exact congrArg Track.bound q3

/-- C95: what a vertex shader reads, through the vertex input state handed with the buffer, is the vertices of the quad:
the position in location 0 and, if texture coordinates are asked for, these in location 1 (otherwise there is no such
input). -/
theorem quad_vertices_read (d : Device) (r : Requirements) (a : Answers) (texCoords iu iv : Bool)
    (hr : quadBufferSize ≤ r.size) (ht : (quadMemory d r a iu iv).thrown = false) (hp : a.pointer = true)
    (i : Nat) (v : Res.Vertex) (hv : (Res.quadVertices iu iv)[i]? = some v) :
    fetch (track (quadMemory d r a iu iv).calls) (quadInput texCoords) i 0 = some (some v.x, some v.y) ∧
    fetch (track (quadMemory d r a iu iv).calls) (quadInput texCoords) i 1 =
      if texCoords then some (some v.u, some v.v) else none := by
  have hx := memory_type_exact d r.typeBits hostVisible
  have hth := (quad_memory d r a iu iv hr).2.2.2
  cases hd : d.deduceMemoryType r.typeBits hostVisible with
  | none => rw [hth.2 (Or.inl (hx.2.1 hd))] at ht; cases ht
  | some t =>
    obtain ⟨hs, hf⟩ := (hx.1 t).1 hd
    rcases a with ⟨al, bo, ma, po⟩
    cases al
    · rw [hth.2 (Or.inr (Or.inl rfl))] at ht; cases ht
    cases bo
    · rw [hth.2 (Or.inr (Or.inr (Or.inl rfl)))] at ht; cases ht
    cases ma
    · rw [hth.2 (Or.inr (Or.inr (Or.inr rfl)))] at ht; cases ht
    obtain rfl : po = true := hp
    obtain ⟨q1, q2, q3⟩ := quad_calls iu iv hr hs
    have ho : (quadMemory d r ⟨true, true, true, true⟩ iu iv).calls =
        [.allocate r.size t, .bind 0, .map 0] ++ layoutFrom 0 (Res.quadVertices iu iv) ++ [.flush 0, .unmap] := by
      unfold quadMemory; rw [hd]; rfl
    rw [ho, q3]
    have hl : i < 3 := by
      have := (List.getElem?_eq_some_iff.1 hv).1
      have e : (Res.quadVertices iu iv).length = 3 := rfl
      omega
    generalize r.size = n
    obtain rfl | rfl | rfl : i = 0 ∨ i = 1 ∨ i = 2 := by omega
    all_goals
      (cases iu <;> cases iv <;> simp only [Res.quadVertices] at hv <;> cases hv <;> cases texCoords <;>
        constructor <;> rfl)

/-- A device with memory types: host visible, device local, both. -/
def exDevice : Device := ⟨[2, 1, 3]⟩

/-- An image that may not use type 1 gets type 2, a vertex buffer type 0; nothing is found for an image allowed only in
type 0. -/
theorem example_memory :
    exDevice.deduceMemoryType 0b101 deviceLocal = some 2 ∧
    (imageMemory exDevice ⟨4096, 256, 0b101⟩ ⟨true, true, true, true⟩).thrown = false ∧
    (quadMemory exDevice ⟨64, 64, 0b111⟩ ⟨true, true, true, true⟩ true false).thrown = false ∧
    fetch (track (quadMemory exDevice ⟨64, 64, 0b111⟩ ⟨true, true, true, true⟩ true false).calls) (quadInput true) 2 1 =
      some (some 0, some 1) ∧
    (imageMemory exDevice ⟨4096, 256, 0b001⟩ ⟨true, true, true, true⟩).calls = [] := by
  decide

end Verif.Mem
