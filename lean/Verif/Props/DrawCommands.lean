import Verif.Spec.DrawCommands
/-
C73: what quad and mesh passes draw.
-/
namespace Verif.DrawCmd

theorem bufferAt_iff {buffers : List Nat} {index h : Nat} : bufferAt buffers index = some h ↔ Picks buffers index h := by
  unfold bufferAt Picks
  match buffers with
  | [] => simp
  | [x] => simp
  | x :: y :: l => simp

theorem drawn_append (a : List Cmd) : ∀ (b : Bound) (c : List Cmd), drawn b (a ++ c) = drawn b a ++ drawn (boundAfter b a) c := by
  induction a with
  | nil => intro b c; rfl
  | cons x a ih =>
    intro b c
    simp only [List.cons_append, drawn, ih, List.append_assoc, boundAfter, List.foldl_cons]

/-- C73. A quad pass draws, after what its callback draws, one triangle per configured instance, of the three vertices
of the quad's buffer. -/
theorem quad_draws (q : Quad) (index vb : Nat) (bs : List Nat) (hv : Picks bs index vb) (hn : vb ≠ 0)
    (hi : Picks q.indirect.buffers index 0) (b : Bound) :
    ∃ cs, recordQuad q bs index = some cs ∧
      drawn b cs = drawn b (q.recordInto index) ++ [⟨some (vb, 0), .vertices 3 q.instances 0 0⟩] ∧
      triangles quadTopology 0 3 = [(0, 1, 2)] := by
  rw [← bufferAt_iff] at hv hi
  refine ⟨_, by simp only [recordQuad, hv, hi, Option.bind_some, Option.map_some]; rfl, ?_, by decide⟩
  simp only [hn, ne_eq, not_false_eq_true, if_true, not_true_eq_false, if_false, List.append_assoc, drawn_append]
  rfl

/-- C73. With an indirect buffer, one draw as described at the configured offset of the buffer for the index. -/
theorem quad_draws_indirect (q : Quad) (index vb ib : Nat) (bs : List Nat) (hv : Picks bs index vb) (hn : vb ≠ 0)
    (hi : Picks q.indirect.buffers index ib) (hib : ib ≠ 0) (b : Bound) :
    ∃ cs, recordQuad q bs index = some cs ∧
      drawn b cs = drawn b (q.recordInto index) ++ [⟨some (vb, 0), .indirect ib q.indirect.offset 1 q.indirect.stride⟩] := by
  rw [← bufferAt_iff] at hv hi
  refine ⟨_, by simp only [recordQuad, hv, hi, Option.bind_some, Option.map_some]; rfl, ?_⟩
  simp only [hn, hib, ne_eq, not_false_eq_true, if_true, List.append_assoc, drawn_append]
  rfl

/-- C73. The triangle a quad pass draws contains the whole viewport (`-1 ≤ x, y ≤ 1`), whatever the texture coordinates
asked for. -/
theorem quad_covers_viewport (iu iv : Bool) (n : Int) (hn : 0 < n) (x y : Int) (hx : -n ≤ x ∧ x ≤ n) (hy : -n ≤ y ∧ y ≤ n) :
    ∃ a b c, (triangles quadTopology 0 3).map (fun t =>
        ((Res.quadVertices iu iv)[t.1]?, (Res.quadVertices iu iv)[t.2.1]?, (Res.quadVertices iu iv)[t.2.2]?)) =
      [(some a, some b, some c)] ∧ Inside n a b c x y := by
  refine ⟨_, _, _, rfl, ?_⟩
  right
  simp only [side]
  refine ⟨?_, ?_, ?_⟩
  · have e : (n * (-1) - n * (-1)) * (y - n * (-3)) - (n * 1 - n * (-3)) * (x - n * (-1)) = - (4 * (n * (x + n))) := by grind
    have := Int.mul_nonneg (Int.le_of_lt hn) (show 0 ≤ x + n by omega)
    rw [e]; omega
  · have e : (n * 3 - n * (-1)) * (y - n * 1) - (n * 1 - n * 1) * (x - n * (-1)) = - (4 * (n * (n - y))) := by grind
    have := Int.mul_nonneg (Int.le_of_lt hn) (show 0 ≤ n - y by omega)
    rw [e]; omega
  · have e : (n * (-1) - n * 3) * (y - n * 1) - (n * (-3) - n * 1) * (x - n * 3) = - (4 * (n * (y - x + 2 * n))) := by grind
    have := Int.mul_nonneg (Int.le_of_lt hn) (show 0 ≤ y - x + 2 * n by omega)
    rw [e]; omega

/-- Nothing configured: index 0, enabled; the callback has priority over the pointer. -/
theorem quad_defaults (q : Quad) : (q.passIndex = none → q.index = 0) ∧ (∀ i, q.passIndex = some i → q.index = i) ∧
    (∀ b, q.isEnabled = some b → q.isOn = b) ∧ (∀ b, q.isEnabled = none → q.enabled = some b → q.isOn = b) ∧
    (q.isEnabled = none → q.enabled = none → q.isOn = true) := by
  refine ⟨?_, ?_, ?_, ?_, ?_⟩ <;> intros <;> simp_all [Quad.index, Quad.isOn]

/-- C73. A mesh pass without index nor indirect buffer draws the configured number of vertices of its vertex buffer. -/
theorem mesh_draws (m : Mesh) (index vb : Nat) (hv : Picks m.vertex index vb) (hn : vb ≠ 0)
    (hi : Picks m.indices index 0) (hd : Picks m.indirect.buffers index 0) (b : Bound) :
    ∃ cs, recordMesh m index = some cs ∧
      drawn b cs = drawn b (m.recordInto index) ++ [⟨some (vb, 0), .vertices m.vertexCount 1 0 0⟩] := by
  rw [← bufferAt_iff] at hv hi hd
  refine ⟨_, by simp only [recordMesh, hv, hi, hd, Option.bind_some, Option.map_some]; rfl, ?_⟩
  simp only [hn, ne_eq, not_false_eq_true, if_true, not_true_eq_false, if_false, List.append_assoc, drawn_append]
  rfl

/-- C73. With an index buffer it draws as many *indices* as the configured number of primitives. -/
theorem mesh_draws_indexed_partial (m : Mesh) (index vb ib : Nat) (hv : Picks m.vertex index vb) (hn : vb ≠ 0)
    (hi : Picks m.indices index ib) (hib : ib ≠ 0) (hd : Picks m.indirect.buffers index 0) (b : Bound) :
    ∃ cs, recordMesh m index = some cs ∧
      drawn b cs = drawn b (m.recordInto index) ++
        [⟨some (vb, 0), .indices (ib, 0, m.indexType) m.primitiveCount 1 0 0 0⟩] := by
  rw [← bufferAt_iff] at hv hi hd
  refine ⟨_, by simp only [recordMesh, hv, hi, hd, Option.bind_some, Option.map_some]; rfl, ?_⟩
  simp only [hn, hib, ne_eq, not_false_eq_true, if_true, not_true_eq_false, if_false, List.append_assoc, drawn_append]
  rfl

/-- C73. With an indirect buffer it draws as described at the configured offset of it, through the index buffer if there is
one. -/
theorem mesh_draws_indirect (m : Mesh) (index vb ib db : Nat) (hv : Picks m.vertex index vb) (hn : vb ≠ 0)
    (hi : Picks m.indices index ib) (hd : Picks m.indirect.buffers index db) (hdb : db ≠ 0) (b : Bound) :
    ∃ cs, recordMesh m index = some cs ∧
      drawn b cs = drawn b (m.recordInto index) ++
        [⟨some (vb, 0), if ib = 0 then .indirect db m.indirect.offset 1 m.indirect.stride
          else .indexedIndirect (ib, 0, m.indexType) db m.indirect.offset 1 m.indirect.stride⟩] := by
  rw [← bufferAt_iff] at hv hi hd
  refine ⟨_, by simp only [recordMesh, hv, hi, hd, Option.bind_some, Option.map_some]; rfl, ?_⟩
  by_cases h : ib = 0
  · simp only [hn, hdb, h, ne_eq, not_false_eq_true, if_true, not_true_eq_false, if_false, List.append_assoc, drawn_append]
    rfl
  · simp only [hn, hdb, h, ne_eq, not_false_eq_true, if_true, if_false, List.append_assoc, drawn_append]
    rfl

/-- C73 is false for indexed meshes: the configured number of primitives is used as a number of indices, so only a third of
the triangles is drawn. -/
theorem primitive_count_is_index_count (m : Mesh) : (triangles meshTopology 0 m.primitiveCount).length = m.primitiveCount / 3 ∧
    (0 < m.primitiveCount → (triangles meshTopology 0 m.primitiveCount).length ≠ m.primitiveCount) := by
  have : (triangles meshTopology 0 m.primitiveCount).length = m.primitiveCount / 3 := by simp [meshTopology, triangles]
  refine ⟨this, fun h => ?_⟩
  rw [this]; omega

/-- Without a vertex buffer the pass binds none: what the callback bound is drawn from. -/
theorem mesh_without_vertices (m : Mesh) (index : Nat) (hv : Picks m.vertex index 0)
    (hi : Picks m.indices index 0) (hd : Picks m.indirect.buffers index 0) (b : Bound) :
    ∃ cs, recordMesh m index = some cs ∧
      drawn b cs = drawn b (m.recordInto index) ++
        [⟨(boundAfter b (m.recordInto index)).vertex, .vertices m.vertexCount 1 0 0⟩] := by
  rw [← bufferAt_iff] at hv hi hd
  refine ⟨_, by simp only [recordMesh, hv, hi, hd, Option.bind_some, Option.map_some]; rfl, ?_⟩
  simp only [ne_eq, not_true_eq_false, if_false, List.append_assoc, drawn_append]
  rfl

/-! ### Concrete cases -/

/-- A quad drawn 4 times, for index 1 of a pass with one vertex buffer and a pair of indirect buffers of which the second is
absent; a mesh of 36 indices, i.e. 12 triangles, with the count of indices given as the primitive count. -/
theorem example_draws :
    Picks [7] 1 7 ∧ Picks [8, 0] 1 0 ∧
    recordQuad { instances := 4, indirect := ⟨[8, 0], 16, 16⟩ } [7] 1 = some [.bindVertex 7 0, .draw 3 4 0 0] ∧
    recordQuad { instances := 4, indirect := ⟨[8, 0], 16, 20⟩ } [7] 0 = some [.bindVertex 7 0, .drawIndirect 8 16 1 20] ∧
    (recordMesh { vertex := [7], indices := [9], primitiveCount := 36, recordInto := fun i => [.other i] } 1).map (drawn {}) =
      some [⟨some (7, 0), .indices (9, 0, 1) 36 1 0 0 0⟩] ∧
    (triangles meshTopology 0 36).length = 12 := by
  refine ⟨Or.inl rfl, Or.inr ⟨by decide, rfl⟩, ?_, ?_, ?_, ?_⟩ <;> decide

end Verif.DrawCmd
