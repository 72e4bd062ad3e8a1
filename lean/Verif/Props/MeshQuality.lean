import Verif.Model.MeshQuality
import Verif.Props.Geometry
import Verif.Props.Mesh

/-!
# Orientation and size of mesh cells (C130)
-/

namespace Verif.Props

open Verif.Model Matrix

section
variable {K : Type*} [Field K]

/-- Component `i` of a point. -/
def comp3 (p : P3 K) (i : Fin 3) : K := if i = 0 then p.1 else if i = 1 then p.2.1 else p.2.2

/-- Coordinates of the four nodes of a tetrahedron of a mesh. -/
def tetCoords (points : List (P3 K)) (row : List ℕ) (a : Fin 4) (i : Fin 3) : K :=
  comp3 (points.getD (row.getD a 0) (0, 0, 0)) i

/-- **C130, tetrahedra.** `check_mesh_TET4` returns one number per cell, in their order: the determinant of the cell map. At every
quadrature point the integration weight of the cell is that number times the reference weight. -/
theorem C130_check_tet4 [CharZero K] (points : List (P3 K)) (cells : List (List ℕ)) (h4 : ∀ row ∈ cells, row.length = 4) :
    ∃ out, checkMeshTet4 points cells = .ok out ∧ out.length = cells.length ∧
    ∀ c (hc : c < cells.length), ∀ {m : ℕ} (pts : Fin m → K × K × K) (w : Fin m → K) (q : Fin m),
      (EleType.TET4.refElem 3 pts w).JxW (tetCoords points cells[c]) q = out.getD c 0 * w q := by
  refine ⟨_, if_pos (by simpa using h4), by simp, fun c hc m pts w q => ?_⟩
  rw [C81_tetrahedron, List.getD_eq_getElem _ _ (by simpa using hc), List.getElem_map]
  congr 1
  rw [Matrix.det_fin_three]
  simp only [Matrix.of_apply, tetCoords, comp3, tetQuality, tetCross, dot3, sub3]
  simp [Fin.ext_iff]
  ring

/-- **C130, tetrahedra.** So the number is six times the volume the cell is integrated with (the reference weights sum to `1/6`),
and it is positive exactly when the cell has positive weights. -/
theorem C130_check_is_orientation [LinearOrder K] [IsStrictOrderedRing K] (points : List (P3 K)) (cells : List (List ℕ))
    (h4 : ∀ row ∈ cells, row.length = 4) {m : ℕ} (hm : 0 < m) (pts : Fin m → K × K × K) (w : Fin m → K) (hw : ∀ q, 0 < w q)
    (hsum : ∑ q, w q = 1 / 6) :
    ∃ out, checkMeshTet4 points cells = .ok out ∧ ∀ c (hc : c < cells.length),
      out.getD c 0 = 6 * ∑ q, (EleType.TET4.refElem 3 pts w).JxW (tetCoords points cells[c]) q ∧
      (0 < out.getD c 0 ↔ ∀ q, 0 < (EleType.TET4.refElem 3 pts w).JxW (tetCoords points cells[c]) q) ∧
      (out.getD c 0 < 0 ↔ ∀ q, (EleType.TET4.refElem 3 pts w).JxW (tetCoords points cells[c]) q < 0) := by
  obtain ⟨out, h1, -, h3⟩ := C130_check_tet4 points cells h4
  refine ⟨out, h1, fun c hc => ?_⟩
  have h := h3 c hc pts w
  refine ⟨?_, ?_, ?_⟩
  · simp only [h, ← Finset.mul_sum, hsum]
    ring
  · simp only [h]
    exact ⟨fun hp q => mul_pos hp (hw q), fun hp => pos_of_mul_pos_left (hp ⟨0, hm⟩) (hw _).le⟩
  · simp only [h]
    exact ⟨fun hp q => mul_neg_of_neg_of_pos hp (hw q), fun hp => by
      have := hp ⟨0, hm⟩
      by_contra hn
      exact absurd (mul_nonneg (not_lt.mp hn) (hw ⟨0, hm⟩).le) (not_le.mpr this)⟩

/-- **C130, what the documentation says and does not hold.** The values are documented as signed volumes; for the unit tetrahedron, of
volume `1/6`, the result is 1. -/
theorem C130_check_not_volume : checkMeshTet4 [((0 : ℚ), 0, 0), (1, 0, 0), (0, 1, 0), (0, 0, 1)] [[0, 1, 2, 3]] = .ok [1] ∧
    ∑ q, (EleType.TET4.refElem 3 (fun _ : Fin 1 => ((1 / 4 : ℚ), 1 / 4, 1 / 4)) fun _ => 1 / 6).JxW
      (tetCoords [((0 : ℚ), 0, 0), (1, 0, 0), (0, 1, 0), (0, 0, 1)] [0, 1, 2, 3]) q = 1 / 6 := by
  obtain ⟨out, h1, -, h3⟩ := C130_check_tet4 [((0 : ℚ), 0, 0), (1, 0, 0), (0, 1, 0), (0, 0, 1)] [[0, 1, 2, 3]] (by simp)
  have e : checkMeshTet4 [((0 : ℚ), 0, 0), (1, 0, 0), (0, 1, 0), (0, 0, 1)] [[0, 1, 2, 3]] = .ok [1] := by
    simp [checkMeshTet4, tetQuality, tetCross, dot3, sub3]
  refine ⟨e, ?_⟩
  rw [e] at h1
  obtain rfl := Except.ok.inj h1
  have := h3 0 (by simp) (fun _ : Fin 1 => ((1 / 4 : ℚ), 1 / 4, 1 / 4)) (fun _ => 1 / 6) 0
  simp only [List.getElem_cons_zero] at this
  rw [Fin.sum_univ_one, this]
  norm_num

/-- **C130.** Exchanging two nodes of a cell turns its sign. -/
theorem C130_swap_turns_sign (p1 p2 p3 p4 : P3 K) : tetQuality p1 p2 p4 p3 = -tetQuality p1 p2 p3 p4 ∧
    tetQuality p1 p3 p2 p4 = -tetQuality p1 p2 p3 p4 ∧ tetQuality p2 p1 p3 p4 = -tetQuality p1 p2 p3 p4 := by
  refine ⟨?_, ?_, ?_⟩ <;> simp only [tetQuality, tetCross, dot3, sub3] <;> ring

/-! ## Rectangles -/

/-- Coordinates of the nodes of cell `c` of a plane mesh. -/
def cellXY (e : EleType) (msh : FeMesh (K × K)) (c : ℕ) (a : Fin e.reOrder.length) (i : Fin e.dim) : K :=
  if (i : ℕ) = 0 then ((vertexAt msh c a).getD (0, 0)).1 else ((vertexAt msh c a).getD (0, 0)).2

/-- The linear part of the map of one cell of a rectangle. -/
def rectB (e : EleType) (hx hy : K) : Matrix (Fin e.dim) (Fin e.dim) K := Matrix.diagonal fun i => if (i : ℕ) = 0 then hx else hy

theorem quadNodes_ref [CharZero K] {ty : String} {ref : List (K × K)} (h : quadNodes K ty = some ref) :
    ∃ e, eleTypeOf ty = .ok e ∧ e.dim = 2 ∧ (∀ hx hy : K, (rectB e hx hy).det = hx * hy) ∧ ref.length = e.reOrder.length ∧
      ∀ a < e.reOrder.length, ref[a]? = some (nodeCoord K e a 0, nodeCoord K e a 1) := by
  unfold quadNodes at h
  split at h <;> simp only [Option.some.injEq, reduceCtorEq] at h <;> subst h
  · refine ⟨.QUAD4, rfl, rfl, fun hx hy => ?_, rfl, fun a ha => ?_⟩
    · rw [rectB, Matrix.det_diagonal]; exact (Fin.prod_univ_two _).trans (by simp)
    · simp [EleType.reOrder] at ha
      interval_cases a <;> simp [nodeCoord, twiceNode, twiceNodes]
  · refine ⟨.QUAD8, rfl, rfl, fun hx hy => ?_, rfl, fun a ha => ?_⟩
    · rw [rectB, Matrix.det_diagonal]; exact (Fin.prod_univ_two _).trans (by simp)
    · simp [EleType.reOrder] at ha
      interval_cases a <;> simp [nodeCoord, twiceNode, twiceNodes]
  · refine ⟨.QUAD9, rfl, rfl, fun hx hy => ?_, rfl, fun a ha => ?_⟩
    · rw [rectB, Matrix.det_diagonal]; exact (Fin.prod_univ_two _).trans (by simp)
    · simp [EleType.reOrder] at ha
      interval_cases a <;> simp [nodeCoord, twiceNode, twiceNodes]

theorem sum_range_grid {M : Type*} [AddCommMonoid M] (nx ny : ℕ) (g : ℕ → M) :
    ∑ c ∈ Finset.range (nx * ny), g c = ∑ i ∈ Finset.range nx, ∑ j ∈ Finset.range ny, g (i * ny + j) := by
  induction nx with
  | zero => simp
  | succ n ih => rw [Nat.succ_mul, Finset.sum_range_add, ih, Finset.sum_range_succ]

/-- **C130, rectangles.** Every cell of `rectangle_mesh` carries, at every quadrature point, the area of one subdivision times the
reference weight. So over the mesh the weights sum to the area of the rectangle, for every element type and every rule whose weights
sum to one; and for every rule exact on linear functions the first moments are those of the rectangle. -/
theorem C130_rectangle [CharZero K] (nx ny : ℕ) (hx : 0 < nx) (hy : 0 < ny) (lx ly x0 y0 : K) (ty : String)
    (msh : FeMesh (K × K)) (h : rectangleMesh nx ny lx ly x0 y0 ty = .ok msh) :
    ∃ e, eleTypeOf ty = .ok e ∧ ∃ hd : e.dim = 2, ∀ {m : ℕ} (pts : Fin m → K × K × K) (w : Fin m → K),
      (∀ c < msh.cells.length, ∀ q, (e.refElem e.dim pts w).JxW (cellXY e msh c) q = lx / nx * (ly / ny) * w q) ∧
      (∑ q, w q = 1 → ∑ c ∈ Finset.range msh.cells.length, ∑ q, (e.refElem e.dim pts w).JxW (cellXY e msh c) q = lx * ly ∧
        (∑ q, w q * (pts q).1 = 1 / 2 →
          ∑ c ∈ Finset.range msh.cells.length, ∑ q, (e.refElem e.dim pts w).JxW (cellXY e msh c) q *
            (e.refElem e.dim pts w).quadPoint (cellXY e msh c) q ⟨0, by omega⟩ = lx * ly * (x0 + lx / 2)) ∧
        (∑ q, w q * (pts q).2.1 = 1 / 2 →
          ∑ c ∈ Finset.range msh.cells.length, ∑ q, (e.refElem e.dim pts w).JxW (cellXY e msh c) q *
            (e.refElem e.dim pts w).quadPoint (cellXY e msh c) q ⟨1, by omega⟩ = lx * ly * (y0 + ly / 2))) := by
  obtain ⟨-, hlen, -, -, ref, href, hv⟩ := C43_rectangle_mesh nx ny hx hy lx ly x0 y0 ty msh h
  obtain ⟨e, he, hd, hdet, -, hnode⟩ := quadNodes_ref href
  have hnx : (nx : K) ≠ 0 := by exact_mod_cast hx.ne'
  have hny : (ny : K) ≠ 0 := by exact_mod_cast hy.ne'
  have haff : ∀ i < nx, ∀ j < ny, AffineCell (refNodes K e) (cellXY e msh (i * ny + j)) (rectB e (lx / nx) (ly / ny))
      (fun k => if (k : ℕ) = 0 then x0 + i * (lx / nx) else y0 + j * (ly / ny)) := by
    intro i hi j hj a k
    simp only [cellXY, hv i hi j hj, hnode a a.2, Option.map_some, Option.getD_some, rectB, Matrix.diagonal_apply, ite_mul,
      zero_mul, Finset.sum_ite_eq, Finset.mem_univ, if_true, refNodes]
    have hk : (k : ℕ) = 0 ∨ (k : ℕ) = 1 := by have := k.2; omega
    rcases hk with hk | hk <;> simp only [hk] <;> norm_num <;> ring
  refine ⟨e, he, hd, fun {m} pts w => ?_⟩
  have hJ : ∀ i < nx, ∀ j < ny, ∀ q, (e.refElem e.dim pts w).JxW (cellXY e msh (i * ny + j)) q = lx / nx * (ly / ny) * w q := by
    intro i hi j hj q
    rw [(C81_affine_cell e pts w _ _ _ (haff i hi j hj)).1, hdet]
  have hQ : ∀ i < nx, ∀ j < ny, ∀ q (k : Fin e.dim), (e.refElem e.dim pts w).quadPoint (cellXY e msh (i * ny + j)) q k =
      if (k : ℕ) = 0 then x0 + (i + (pts q).1) * (lx / nx) else y0 + (j + (pts q).2.1) * (ly / ny) := by
    intro i hi j hj q k
    have hk : (k : ℕ) = 0 ∨ (k : ℕ) = 1 := by have := k.2; omega
    have hone := C79_partition_of_unity e (pts q).1 (pts q).2.1 (pts q).2.2
    have hco := C79_coordinates e (pts q).1 (pts q).2.1 (pts q).2.2 k k.2
    have hX : ∀ a, cellXY e msh (i * ny + j) a k = (if (k : ℕ) = 0 then lx / nx else ly / ny) * nodeCoord K e a k +
        (if (k : ℕ) = 0 then x0 + i * (lx / nx) else y0 + j * (ly / ny)) := by
      intro a
      rw [haff i hi j hj a k]
      simp [rectB, Matrix.diagonal_apply, refNodes]
    simp only [RefElem.quadPoint, EleType.refElem, hX, mul_add, Finset.sum_add_distrib, ← Finset.sum_mul]
    rw [hone]
    have : ∑ a : Fin e.reOrder.length, (shapeValuesAt e (pts q).1 (pts q).2.1 (pts q).2.2).getD a 0 *
        ((if (k : ℕ) = 0 then lx / nx else ly / ny) * nodeCoord K e a k) =
        (if (k : ℕ) = 0 then lx / nx else ly / ny) * coordOf (pts q).1 (pts q).2.1 (pts q).2.2 k := by
      rw [← hco, Finset.mul_sum]
      exact Finset.sum_congr rfl fun a _ => by ring
    rw [this]
    rcases hk with hk | hk <;> simp only [hk, coordOf] <;> norm_num <;> ring
  refine ⟨?_, fun hw => ⟨?_, fun hm => ?_, fun hm => ?_⟩⟩
  · intro c hc q
    rw [hlen] at hc
    have := hJ (c / ny) ((Nat.div_lt_iff_lt_mul hy).2 hc) (c % ny) (Nat.mod_lt _ hy) q
    rwa [Nat.div_add_mod'] at this
  · rw [hlen, sum_range_grid]
    rw [Finset.sum_congr rfl fun i hi => Finset.sum_congr rfl fun j hj =>
      Finset.sum_congr rfl fun q _ => hJ i (Finset.mem_range.mp hi) j (Finset.mem_range.mp hj) q]
    simp only [← Finset.mul_sum, hw, Finset.sum_const, Finset.card_range, nsmul_eq_mul]
    field_simp
  · rw [hlen, sum_range_grid]
    have : ∀ i ∈ Finset.range nx, ∀ j ∈ Finset.range ny, ∑ q, (e.refElem e.dim pts w).JxW (cellXY e msh (i * ny + j)) q *
        (e.refElem e.dim pts w).quadPoint (cellXY e msh (i * ny + j)) q ⟨0, by omega⟩ =
        lx / nx * (ly / ny) * (x0 + (i + 1 / 2) * (lx / nx)) := by
      intro i hi j hj
      rw [Finset.mem_range] at hi hj
      simp only [hJ i hi j hj, hQ i hi j hj]
      rw [← hm]
      simp only [if_true]
      calc ∑ q, lx / nx * (ly / ny) * w q * (x0 + (i + (pts q).1) * (lx / nx))
          = ∑ q, (lx / nx * (ly / ny) * (x0 + i * (lx / nx)) * w q + lx / nx * (ly / ny) * (lx / nx) * (w q * (pts q).1)) :=
            Finset.sum_congr rfl fun q _ => by ring
        _ = _ := by rw [Finset.sum_add_distrib, ← Finset.mul_sum, ← Finset.mul_sum, hw]; ring
    rw [Finset.sum_congr rfl fun i hi => Finset.sum_congr rfl fun j hj => this i hi j hj]
    simp only [Finset.sum_const, Finset.card_range, nsmul_eq_mul]
    have g : ∀ n : ℕ, ∑ i ∈ Finset.range n, (i + 1 / 2 : K) = (n : K) ^ 2 / 2 := by
      intro n
      induction n with
      | zero => simp
      | succ n ih => rw [Finset.sum_range_succ, ih]; push_cast; ring
    calc ∑ i ∈ Finset.range nx, (ny : K) * (lx / nx * (ly / ny) * (x0 + (i + 1 / 2) * (lx / nx)))
        = ∑ i ∈ Finset.range nx, (ny * (lx / nx * (ly / ny)) * x0 + ny * (lx / nx * (ly / ny)) * (lx / nx) * (i + 1 / 2)) :=
          Finset.sum_congr rfl fun i _ => by ring
      _ = lx * ly * (x0 + lx / 2) := by
          rw [Finset.sum_add_distrib, ← Finset.mul_sum, ← Finset.mul_sum, g, Finset.sum_const, Finset.card_range, nsmul_eq_mul]
          field_simp
  · rw [hlen, sum_range_grid]
    have : ∀ i ∈ Finset.range nx, ∀ j ∈ Finset.range ny, ∑ q, (e.refElem e.dim pts w).JxW (cellXY e msh (i * ny + j)) q *
        (e.refElem e.dim pts w).quadPoint (cellXY e msh (i * ny + j)) q ⟨1, by omega⟩ =
        lx / nx * (ly / ny) * (y0 + (j + 1 / 2) * (ly / ny)) := by
      intro i hi j hj
      rw [Finset.mem_range] at hi hj
      simp only [hJ i hi j hj, hQ i hi j hj]
      rw [← hm]
      simp only [one_ne_zero, if_false]
      calc ∑ q, lx / nx * (ly / ny) * w q * (y0 + (j + (pts q).2.1) * (ly / ny))
          = ∑ q, (lx / nx * (ly / ny) * (y0 + j * (ly / ny)) * w q + lx / nx * (ly / ny) * (ly / ny) * (w q * (pts q).2.1)) :=
            Finset.sum_congr rfl fun q _ => by ring
        _ = _ := by rw [Finset.sum_add_distrib, ← Finset.mul_sum, ← Finset.mul_sum, hw]; ring
    rw [Finset.sum_congr rfl fun i hi => Finset.sum_congr rfl fun j hj => this i hi j hj]
    simp only [Finset.sum_const, Finset.card_range, nsmul_eq_mul]
    have g : ∀ n : ℕ, ∑ i ∈ Finset.range n, (i + 1 / 2 : K) = (n : K) ^ 2 / 2 := by
      intro n
      induction n with
      | zero => simp
      | succ n ih => rw [Finset.sum_range_succ, ih]; push_cast; ring
    calc (nx : K) * ∑ j ∈ Finset.range ny, (lx / nx * (ly / ny) * (y0 + (j + 1 / 2) * (ly / ny)))
        = nx * ∑ j ∈ Finset.range ny, (lx / nx * (ly / ny) * y0 + lx / nx * (ly / ny) * (ly / ny) * (j + 1 / 2)) := by
          congr 1
          exact Finset.sum_congr rfl fun i _ => by ring
      _ = lx * ly * (y0 + ly / 2) := by
          rw [Finset.sum_add_distrib, ← Finset.mul_sum, ← Finset.mul_sum, g, Finset.sum_const, Finset.card_range, nsmul_eq_mul]
          field_simp

/-- **C130, rectangles.** With positive sides and reference weights no cell is inverted. -/
theorem C130_rectangle_positive [LinearOrder K] [IsStrictOrderedRing K] (nx ny : ℕ) (hx : 0 < nx) (hy : 0 < ny) (lx ly x0 y0 : K)
    (hlx : 0 < lx) (hly : 0 < ly) (ty : String) (msh : FeMesh (K × K)) (h : rectangleMesh nx ny lx ly x0 y0 ty = .ok msh) :
    ∃ e, eleTypeOf ty = .ok e ∧ ∀ {m : ℕ} (pts : Fin m → K × K × K) (w : Fin m → K), (∀ q, 0 < w q) →
      ∀ c < msh.cells.length, ∀ q, 0 < (e.refElem e.dim pts w).JxW (cellXY e msh c) q := by
  obtain ⟨e, he, hd, hr⟩ := C130_rectangle nx ny hx hy lx ly x0 y0 ty msh h
  refine ⟨e, he, fun pts w hw c hc q => ?_⟩
  rw [(hr pts w).1 c hc q]
  have h1 : (0 : K) < nx := by exact_mod_cast hx
  have h2 : (0 : K) < ny := by exact_mod_cast hy
  have := hw q
  positivity

end

/-! ### The hypotheses are met -/

example : ∀ row ∈ [[0, 1, 2, 3], [1, 2, 3, 4]], row.length = 4 := by decide

example : ∃ msh, rectangleMesh (K := ℚ) 3 2 6 4 1 0 "QUAD8" = .ok msh := ⟨_, rfl⟩

end Verif.Props
