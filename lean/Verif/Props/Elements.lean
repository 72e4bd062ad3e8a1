import Verif.Model.Geometry
import Verif.Model.Mesh
import Mathlib.Tactic.Ring
import Mathlib.Tactic.FieldSimp
import Mathlib.Tactic.Linarith
import Mathlib.Tactic.LinearCombination
import Mathlib.Tactic.Positivity
import Mathlib.Algebra.Order.Ring.Rat
import Mathlib.Algebra.Order.BigOperators.Group.Finset
import Mathlib.Tactic.IntervalCases
import Mathlib.Data.List.GetD
import Mathlib.Algebra.BigOperators.Fin
import Mathlib.Algebra.Field.Rat

/-!
# Reference elements (C79)
-/

namespace Verif.Props

open Verif.Model

/-! ## Specification: the node numbering of meshio (and VTK) -/

/-- Twice the reference coordinates of the nodes of each element type, in the order of meshio cell blocks: corner nodes
counter-clockwise (bottom face then top face for hexahedra), then edge midpoints in the order of VTK, then the centre. The
serendipity types are listed too. Cell corners are at `0` and `1`, so entries are `0`, `1`, `2`. -/
def twiceNodes : EleType → List (List ℕ)
  | .TRI3 => [[0, 0, 0], [2, 0, 0], [0, 2, 0]]
  | .TRI6 => [[0, 0, 0], [2, 0, 0], [0, 2, 0], [1, 0, 0], [1, 1, 0], [0, 1, 0]]
  | .QUAD4 => [[0, 0, 0], [2, 0, 0], [2, 2, 0], [0, 2, 0]]
  | .QUAD8 => [[0, 0, 0], [2, 0, 0], [2, 2, 0], [0, 2, 0], [1, 0, 0], [2, 1, 0], [1, 2, 0], [0, 1, 0]]
  | .QUAD9 => [[0, 0, 0], [2, 0, 0], [2, 2, 0], [0, 2, 0], [1, 0, 0], [2, 1, 0], [1, 2, 0], [0, 1, 0], [1, 1, 0]]
  | .TET4 => [[0, 0, 0], [2, 0, 0], [0, 2, 0], [0, 0, 2]]
  | .TET10 => [[0, 0, 0], [2, 0, 0], [0, 2, 0], [0, 0, 2], [1, 0, 0], [1, 1, 0], [0, 1, 0], [0, 0, 1], [1, 0, 1], [0, 1, 1]]
  | .HEX8 => [[0, 0, 0], [2, 0, 0], [2, 2, 0], [0, 2, 0], [0, 0, 2], [2, 0, 2], [2, 2, 2], [0, 2, 2]]
  | .HEX20 => [[0, 0, 0], [2, 0, 0], [2, 2, 0], [0, 2, 0], [0, 0, 2], [2, 0, 2], [2, 2, 2], [0, 2, 2],
      [1, 0, 0], [2, 1, 0], [1, 2, 0], [0, 1, 0], [1, 0, 2], [2, 1, 2], [1, 2, 2], [0, 1, 2],
      [0, 0, 1], [2, 0, 1], [2, 2, 1], [0, 2, 1]]

/-- Twice the coordinate `j` of node `a`. -/
def twiceNode (e : EleType) (a j : ℕ) : ℕ := ((twiceNodes e).getD a []).getD j 0

/-- Reference coordinate `j` of node `a`. -/
def nodeCoord (K : Type*) [Field K] (e : EleType) (a j : ℕ) : K := (twiceNode e a j : K) / 2

/-- Node `a` lies on facet `f`: it is a vertex of the facet or the midpoint of two of them. -/
def OnFacet (e : EleType) (f a : ℕ) : Prop :=
  ∃ v ∈ (basixFacets e).getD f [], ∃ w ∈ (basixFacets e).getD f [], ∀ j < 3,
    twiceNode e a j = ((basixVertices e).getD v []).getD j 0 + ((basixVertices e).getD w []).getD j 0

instance (e : EleType) (f a : ℕ) : Decidable (OnFacet e f a) := by unfold OnFacet; infer_instance

/-- All element types. -/
def allTypes : List EleType := [.HEX8, .HEX20, .TET4, .TET10, .QUAD4, .QUAD8, .QUAD9, .TRI3, .TRI6]

theorem mem_allTypes (e : EleType) : e ∈ allTypes := by cases e <;> simp [allTypes]

/-! ## Moments of the shape functions -/

section
variable {R : Type*} [CommRing R]

/-- `∑ₐ Nₐ(x, y, z) cₐ`. -/
def moment (e : EleType) (c : ℕ → ℕ) (x y z : R) : R :=
  ∑ a : Fin e.reOrder.length, (shapeValuesAt e x y z).getD a 0 * (c a : R)

theorem shapeValuesAt_length (e : EleType) (x y z : R) : (shapeValuesAt e x y z).length = e.reOrder.length := by
  simp [shapeValuesAt]

theorem shapeGradAt_length (e : EleType) (x y z : R) (j : ℕ) : (shapeGradAt e x y z j).length = e.reOrder.length := by
  simp [shapeGradAt, shapeValuesAt_length]

theorem moment_eq_range (e : EleType) (c : ℕ → ℕ) (x y z : R) :
    moment e c x y z = ∑ a ∈ Finset.range e.reOrder.length, (shapeValuesAt e x y z).getD a 0 * (c a : R) := by
  rw [moment, Fin.sum_univ_eq_sum_range (fun a => (shapeValuesAt e x y z).getD a 0 * (c a : R))]

theorem moment_one (e : EleType) (x y z : R) : moment e (fun _ => 1) x y z = 1 := by
  rw [moment_eq_range]
  cases e <;> 
    simp [Finset.sum_range_succ, shapeValuesAt, EleType.reOrder, basixValues, line2, serendipityQuad, serendipityHex] <;> ring

theorem moment_x (e : EleType) (x y z : R) :
    moment e (fun a => twiceNode e a 0) x y z = 2 * x := by
  rw [moment_eq_range]
  cases e <;> 
    simp [Finset.sum_range_succ, shapeValuesAt, EleType.reOrder, basixValues, line2, serendipityQuad, serendipityHex, twiceNode, twiceNodes] <;> ring

theorem moment_y (e : EleType) (x y z : R) :
    moment e (fun a => twiceNode e a 1) x y z = 2 * y := by
  rw [moment_eq_range]
  cases e <;> 
    simp [Finset.sum_range_succ, shapeValuesAt, EleType.reOrder, basixValues, line2, serendipityQuad, serendipityHex, twiceNode, twiceNodes] <;> ring

theorem moment_z (e : EleType) (hd : e.dim = 3) (x y z : R) :
    moment e (fun a => twiceNode e a 2) x y z = 2 * z := by
  rw [moment_eq_range]
  cases e <;> simp [EleType.dim] at hd <;>
    simp [Finset.sum_range_succ, shapeValuesAt, EleType.reOrder, basixValues, line2, serendipityQuad, serendipityHex, twiceNode, twiceNodes] <;> ring

/-- The types with a complete quadratic basis. -/
def isQuadratic (e : EleType) : Prop := e = .TRI6 ∨ e = .TET10 ∨ e = .QUAD9

/-- Coordinate `j` of `(x, y, z)`. -/
def coordOf (x y z : R) (j : ℕ) : R := if j = 0 then x else if j = 1 then y else z

theorem moment_lin (e : EleType) (x y z : R) (i : ℕ) (hi : i < e.dim) :
    moment e (fun a => twiceNode e a i) x y z = 2 * coordOf x y z i := by
  have h3 : e.dim ≤ 3 := by cases e <;> simp [EleType.dim]
  have h2 : e.dim = 2 ∨ e.dim = 3 := by cases e <;> simp [EleType.dim]
  rcases h2 with h | h <;> rw [h] at hi <;> interval_cases i
  · simpa [coordOf] using moment_x e x y z
  · simpa [coordOf] using moment_y e x y z
  · simpa [coordOf] using moment_x e x y z
  · simpa [coordOf] using moment_y e x y z
  · simpa [coordOf] using moment_z e h x y z

theorem moment_quad (e : EleType) (he : isQuadratic e) (x y z : R) (i j : ℕ) (hi : i < e.dim) (hj : j < e.dim) :
    moment e (fun a => twiceNode e a i * twiceNode e a j) x y z = 4 * (coordOf x y z i * coordOf x y z j) := by
  rw [moment_eq_range]
  rcases he with rfl | rfl | rfl <;> simp only [EleType.dim] at hi hj <;> interval_cases i <;> interval_cases j <;>
    simp [Finset.sum_range_succ, shapeValuesAt, EleType.reOrder, basixValues, line2, serendipityQuad, serendipityHex, twiceNode, twiceNodes, coordOf] <;> ring

/-! ## Derivatives -/

/-- The perturbed point used by `shapeGradAt`. -/
theorem shapeGradAt_getD (e : EleType) (x y z : R) (j a : ℕ) :
    (shapeGradAt e x y z j).getD a 0 =
      ((shapeValuesAt e (TrivSqZeroExt.inl x + if j = 0 then DualNumber.eps else 0)
        (TrivSqZeroExt.inl y + if j = 1 then DualNumber.eps else 0)
        (TrivSqZeroExt.inl z + if j = 2 then DualNumber.eps else 0) : List (DualNumber R)).getD a 0).snd := by
  unfold shapeGradAt
  generalize (shapeValuesAt e _ _ _ : List (DualNumber R)) = l
  rw [← TrivSqZeroExt.snd_zero (R := R) (M := R), List.getD_map]

theorem natCast_snd (k : ℕ) : (k : DualNumber R).snd = 0 := TrivSqZeroExt.snd_natCast k
theorem natCast_fst (k : ℕ) : (k : DualNumber R).fst = k := TrivSqZeroExt.fst_natCast k

/-- `∑ₐ ∂ⱼNₐ(x, y, z) cₐ`. -/
def gradMoment (e : EleType) (c : ℕ → ℕ) (x y z : R) (j : ℕ) : R :=
  ∑ a : Fin e.reOrder.length, (shapeGradAt e x y z j).getD a 0 * (c a : R)

theorem gradMoment_eq (e : EleType) (c : ℕ → ℕ) (x y z : R) (j : ℕ) :
    gradMoment e c x y z j = (moment e c (TrivSqZeroExt.inl x + if j = 0 then DualNumber.eps else 0)
        (TrivSqZeroExt.inl y + if j = 1 then DualNumber.eps else 0)
        (TrivSqZeroExt.inl z + if j = 2 then DualNumber.eps else 0) : DualNumber R).snd := by
  unfold gradMoment moment
  rw [TrivSqZeroExt.snd_sum]
  refine Finset.sum_congr rfl fun a _ => ?_
  rw [shapeGradAt_getD, TrivSqZeroExt.snd_mul, natCast_snd, natCast_fst]
  simp [mul_comm]

theorem coordOf_perturb (x y z : R) (i j : ℕ) (hi : i < 3) (hj : j < 3) :
    coordOf (TrivSqZeroExt.inl x + if j = 0 then DualNumber.eps else 0)
        (TrivSqZeroExt.inl y + if j = 1 then DualNumber.eps else 0)
        (TrivSqZeroExt.inl z + if j = 2 then DualNumber.eps else 0) i =
      (TrivSqZeroExt.inl (coordOf x y z i) + if i = j then DualNumber.eps else 0 : DualNumber R) := by
  interval_cases i <;> interval_cases j <;> simp [coordOf]

theorem dim_le (e : EleType) : e.dim ≤ 3 := by cases e <;> simp [EleType.dim]

theorem gradMoment_one (e : EleType) (x y z : R) (j : ℕ) :
    gradMoment e (fun _ => 1) x y z j = 0 := by
  rw [gradMoment_eq, moment_one e]; simp

theorem gradMoment_lin (e : EleType) (x y z : R) (i j : ℕ) (hi : i < e.dim) (hj : j < e.dim) :
    gradMoment e (fun a => twiceNode e a i) x y z j = if i = j then 2 else 0 := by
  have := dim_le e
  rw [gradMoment_eq, moment_lin e _ _ _ i hi, coordOf_perturb _ _ _ _ _ (by omega) (by omega)]
  have h2 : (2 : DualNumber R) = ((2 : ℕ) : DualNumber R) := by norm_num
  rw [h2, TrivSqZeroExt.snd_mul, natCast_fst, natCast_snd]
  split <;> simp

/-- `∑ₐ ∂ᵢ∂ⱼNₐ(x, y, z) cₐ`. -/
def hessMoment (e : EleType) (c : ℕ → ℕ) (x y z : R) (i j : ℕ) : R :=
  ∑ a : Fin e.reOrder.length, (basixHessAt e x y z i j).getD a 0 * (c a : R)

theorem hessMoment_eq (e : EleType) (c : ℕ → ℕ) (x y z : R) (i j : ℕ) :
    hessMoment e c x y z i j = (gradMoment e c (TrivSqZeroExt.inl x + if i = 0 then DualNumber.eps else 0)
        (TrivSqZeroExt.inl y + if i = 1 then DualNumber.eps else 0)
        (TrivSqZeroExt.inl z + if i = 2 then DualNumber.eps else 0) j : DualNumber R).snd := by
  unfold hessMoment gradMoment
  rw [TrivSqZeroExt.snd_sum]
  refine Finset.sum_congr rfl fun a _ => ?_
  have : (basixHessAt e x y z i j).getD a 0 =
      ((shapeGradAt e (TrivSqZeroExt.inl x + if i = 0 then DualNumber.eps else 0)
        (TrivSqZeroExt.inl y + if i = 1 then DualNumber.eps else 0)
        (TrivSqZeroExt.inl z + if i = 2 then DualNumber.eps else 0) j : List (DualNumber R)).getD a 0).snd := by
    unfold basixHessAt
    generalize (shapeGradAt e _ _ _ j : List (DualNumber R)) = l
    rw [← TrivSqZeroExt.snd_zero (R := R) (M := R), List.getD_map]
  rw [this, TrivSqZeroExt.snd_mul, natCast_snd, natCast_fst]
  simp [mul_comm]

theorem hessMoment_one (e : EleType) (x y z : R) (i j : ℕ) :
    hessMoment e (fun _ => 1) x y z i j = 0 := by
  rw [hessMoment_eq, gradMoment_one e]; simp

theorem hessMoment_lin (e : EleType) (x y z : R) (k i j : ℕ) (hk : k < e.dim) (hj : j < e.dim) :
    hessMoment e (fun a => twiceNode e a k) x y z i j = 0 := by
  rw [hessMoment_eq, gradMoment_lin e _ _ _ _ _ hk hj]
  have h2 : (2 : DualNumber R) = ((2 : ℕ) : DualNumber R) := by norm_num
  split
  · rw [h2, natCast_snd]
  · simp

theorem gradMoment_quad (e : EleType) (he : isQuadratic e) (x y z : R) (k l j : ℕ) (hk : k < e.dim) (hl : l < e.dim)
    (hj : j < e.dim) :
    gradMoment e (fun a => twiceNode e a k * twiceNode e a l) x y z j =
      4 * ((if k = j then coordOf x y z l else 0) + if l = j then coordOf x y z k else 0) := by
  have := dim_le e
  rw [gradMoment_eq, moment_quad e he _ _ _ k l hk hl, coordOf_perturb _ _ _ _ _ (by omega) (by omega),
    coordOf_perturb _ _ _ _ _ (by omega) (by omega)]
  have h4 : (4 : DualNumber R) = ((4 : ℕ) : DualNumber R) := by norm_num
  rw [h4, TrivSqZeroExt.snd_mul, natCast_fst, natCast_snd, TrivSqZeroExt.snd_mul]
  split <;> split <;> simp [add_comm]

theorem hessMoment_quad (e : EleType) (he : isQuadratic e) (x y z : R) (k l i j : ℕ) (hk : k < e.dim) (hl : l < e.dim)
    (hi : i < e.dim) (hj : j < e.dim) :
    hessMoment e (fun a => twiceNode e a k * twiceNode e a l) x y z i j =
      4 * ((if k = j ∧ l = i then 1 else 0) + if l = j ∧ k = i then 1 else 0) := by
  have := dim_le e
  rw [hessMoment_eq, gradMoment_quad e he _ _ _ k l j hk hl hj, coordOf_perturb _ _ _ _ _ (by omega) (by omega),
    coordOf_perturb _ _ _ _ _ (by omega) (by omega)]
  have h4 : (4 : DualNumber R) = ((4 : ℕ) : DualNumber R) := by norm_num
  rw [h4, TrivSqZeroExt.snd_mul, natCast_fst, natCast_snd]
  split_ifs <;> simp_all
end

/-! ## C79 -/

/-- Each node-order table is a permutation of the Basix numbers, with one entry per node of the element type. -/
theorem C79_order_is_permutation (e : EleType) :
    e.reOrder.Perm (List.range e.reOrder.length) ∧ e.reOrder.length = (twiceNodes e).length := by
  have h : ∀ e ∈ allTypes, e.reOrder.Perm (List.range e.reOrder.length) ∧ e.reOrder.length = (twiceNodes e).length := by
    decide +kernel
  exact h e (mem_allTypes e)

/-- Shape function `a` is 1 at node `a` of the element, in the node order of the mesh, and 0 at every other node. -/
theorem C79_nodal (e : EleType) (he : e.isLagrange) (a b : ℕ) (ha : a < e.reOrder.length) (hb : b < e.reOrder.length) :
    (shapeValuesAt e (nodeCoord ℚ e b 0) (nodeCoord ℚ e b 1) (nodeCoord ℚ e b 2)).getD a 0 = if a = b then 1 else 0 := by
  have h : ∀ e ∈ allTypes, e.isLagrange → ∀ a < e.reOrder.length, ∀ b < e.reOrder.length,
      (shapeValuesAt e (nodeCoord ℚ e b 0) (nodeCoord ℚ e b 1) (nodeCoord ℚ e b 2)).getD a 0 = if a = b then 1 else 0 := by
    decide +kernel
  exact h e (mem_allTypes e) he a ha b hb

/-- The shape functions add up to 1 at every point. -/
theorem C79_partition_of_unity {R : Type*} [CommRing R] (e : EleType) (x y z : R) :
    ∑ a : Fin e.reOrder.length, (shapeValuesAt e x y z).getD a 0 = 1 := by
  simpa [moment] using moment_one e x y z

theorem two_mul_nodeCoord {K : Type*} [Field K] [CharZero K] (e : EleType) (a j : ℕ) :
    2 * nodeCoord K e a j = twiceNode e a j := by
  unfold nodeCoord; field_simp

/-- Interpolating the node coordinates returns the coordinates of the point, at every point. -/
theorem C79_coordinates {K : Type*} [Field K] [CharZero K] (e : EleType) (x y z : K) (i : ℕ)
    (hi : i < e.dim) :
    ∑ a : Fin e.reOrder.length, (shapeValuesAt e x y z).getD a 0 * nodeCoord K e a i = coordOf x y z i := by
  have h := moment_lin e x y z i hi
  unfold moment at h
  have h2 : (2 : K) ≠ 0 := two_ne_zero
  apply mul_left_cancel₀ h2
  rw [← h, Finset.mul_sum]
  refine Finset.sum_congr rfl fun a _ => ?_
  rw [← two_mul_nodeCoord]; ring

/-- The reference gradients of the shape functions add up to zero at every point. -/
theorem C79_gradients_sum {R : Type*} [CommRing R] (e : EleType) (x y z : R) (j : ℕ) :
    ∑ a : Fin e.reOrder.length, (shapeGradAt e x y z j).getD a 0 = 0 := by
  simpa [gradMoment] using gradMoment_one e x y z j

/-- The reference gradient of the `i`-th coordinate is the `i`-th unit vector. -/
theorem C79_gradients_coordinates {K : Type*} [Field K] [CharZero K] (e : EleType) (x y z : K)
    (i j : ℕ) (hi : i < e.dim) (hj : j < e.dim) :
    ∑ a : Fin e.reOrder.length, nodeCoord K e a i * (shapeGradAt e x y z j).getD a 0 = if i = j then 1 else 0 := by
  have h := gradMoment_lin e x y z i j hi hj
  unfold gradMoment at h
  apply mul_left_cancel₀ (two_ne_zero (α := K))
  have : (2 : K) * (if i = j then 1 else 0) = if i = j then 2 else 0 := by split <;> simp
  rw [this, ← h, Finset.mul_sum]
  refine Finset.sum_congr rfl fun a _ => ?_
  rw [← two_mul_nodeCoord]; ring

/-- The face table: every supported type gets one, with the facets of the cell in order, and entry `(f, i)` is the local
number of the node at vertex `i` of facet `f`. -/
theorem C79_face_nodes (e : EleType) : ∃ F, faceInds e = .ok F ∧ F.length = (basixFacets e).length ∧
    ∀ f < F.length, (F.getD f []).length = ((basixFacets e).getD f []).length ∧ ∀ i < (F.getD f []).length, ∀ j < 3,
      (F.getD f []).getD i 0 < e.reOrder.length ∧
      twiceNode e ((F.getD f []).getD i 0) j =
        2 * ((basixVertices e).getD (((basixFacets e).getD f []).getD i 0) []).getD j 0 := by
  have h : ∀ e ∈ allTypes, (faceInds e).toOption.isSome ∧ ∀ F ∈ (faceInds e).toOption, F.length = (basixFacets e).length ∧
    ∀ f < F.length, (F.getD f []).length = ((basixFacets e).getD f []).length ∧ ∀ i < (F.getD f []).length, ∀ j < 3,
      (F.getD f []).getD i 0 < e.reOrder.length ∧
      twiceNode e ((F.getD f []).getD i 0) j =
        2 * ((basixVertices e).getD (((basixFacets e).getD f []).getD i 0) []).getD j 0 := by
    decide +kernel
  obtain ⟨h1, h2⟩ := h e (mem_allTypes e)
  cases hF : faceInds e with
  | error x => simp [hF, Except.toOption] at h1
  | ok F => exact ⟨F, rfl, h2 F (by simp [hF, Except.toOption])⟩

set_option maxHeartbeats 4000000 in
/-- On a facet, the shape functions of the nodes off the facet vanish at every point: a load on the facet reaches only the
nodes of the facet. -/
theorem C79_face_trace {R : Type*} [CommRing R] (e : EleType) (f : ℕ) (hf : f < (basixFacets e).length)
    (a : ℕ) (ha : a < e.reOrder.length) (hoff : ¬ OnFacet e f a) (s t : R) :
    (shapeValuesAt e (mappedPoint e f s t 0) (mappedPoint e f s t 1) (mappedPoint e f s t 2)).getD a 0 = 0 := by
  cases e <;> simp [basixFacets] at hf <;> simp [EleType.reOrder] at ha <;>
    interval_cases f <;> interval_cases a <;>
    first
      | exact absurd (by decide) hoff
      | (simp [shapeValuesAt, EleType.reOrder, basixValues, line2, serendipityQuad, serendipityHex, mappedPoint, basixFacets, basixVertices, facetValues]
         try ring)

set_option maxHeartbeats 1000000 in
/-- On linear elements, the shape function of the `i`-th node of a face is, along the face, the `i`-th linear function of the
face: the load per node is the one of the face taken by itself. -/
theorem C79_face_restriction {R : Type*} [CommRing R] (e : EleType) (he : e.isLagrange) (h1 : e.degree = 1) (F : List (List ℕ))
    (hF : faceInds e = .ok F) (f : ℕ) (hf : f < F.length) (i : ℕ) (hi : i < (F.getD f []).length) (s t : R) :
    (shapeValuesAt e (mappedPoint e f s t 0) (mappedPoint e f s t 1) (mappedPoint e f s t 2)).getD
      ((F.getD f []).getD i 0) 0 = (facetValues e s t).getD i 0 := by
  cases e <;> simp [EleType.isLagrange] at he <;> simp [EleType.degree] at h1 <;>
    first
      | (rw [show faceInds .HEX8 = .ok [[0, 1, 3, 2], [0, 1, 4, 5], [0, 3, 4, 7], [1, 2, 5, 6], [3, 2, 7, 6], [4, 5, 7, 6]]
            by decide +kernel] at hF
         cases hF)
      | (rw [show faceInds .TET4 = .ok [[1, 2, 3], [0, 2, 3], [0, 1, 3], [0, 1, 2]] by decide +kernel] at hF
         cases hF)
      | (rw [show faceInds .QUAD4 = .ok [[0, 1], [0, 3], [1, 2], [3, 2]] by decide +kernel] at hF
         cases hF)
      | (rw [show faceInds .TRI3 = .ok [[1, 2], [0, 2], [0, 1]] by decide +kernel] at hF
         cases hF)
  all_goals
    simp only [List.length_cons, List.length_nil] at hf
    interval_cases f <;> simp at hi <;> interval_cases i <;>
      simp [shapeValuesAt, EleType.reOrder, basixValues, mappedPoint, basixFacets, basixVertices, facetValues]
  all_goals try ring

/-- Element names outside the supported list are refused; the supported names select their type. -/
theorem C79_supported (s : String) : (∃ e, eleTypeOf s = .ok e) ↔
    s ∈ ["HEX8", "HEX20", "TET4", "TET10", "QUAD4", "QUAD8", "QUAD9", "TRI3", "TRI6"] := by
  unfold eleTypeOf
  constructor
  · rintro ⟨e, h⟩
    split_ifs at h <;> simp_all
  · intro h
    simp only [List.mem_cons, List.not_mem_nil, or_false] at h
    rcases h with rfl | rfl | rfl | rfl | rfl | rfl | rfl | rfl | rfl <;> simp

/-- `HEX27`, which `Mesh.from_gmsh` and `FiniteElement` list as supported, is refused. -/
theorem C79_hex27_refused : eleTypeOf "HEX27" = .error .notImplemented := by decide +kernel

/-- **C79.** The node order used for the faces of boundary conditions (`Model.reOrder`) is the order of the shape functions. -/
theorem C79_same_order (s : String) (e : EleType) (h : eleTypeOf s = .ok e) : Verif.Model.reOrder s = some e.reOrder := by
  unfold eleTypeOf at h
  split_ifs at h <;> first | (have := Except.ok.inj h; subst this; subst_vars; rfl) | cases h

/-- Gmsh's numbering of the 10-node tetrahedron (its manual: the last two edge nodes are exchanged with respect to VTK and
meshio), twice the coordinates. -/
def gmshTet10 : List (List ℕ) :=
  [[0, 0, 0], [2, 0, 0], [0, 2, 0], [0, 0, 2], [1, 0, 0], [1, 1, 0], [0, 1, 0], [0, 0, 1], [0, 1, 1], [1, 0, 1]]

/-- Cells numbered in Gmsh's own order, as `refine_mesh` returns them, are not in the order the shape functions use: function
8 is zero at the node Gmsh numbers 8. -/
theorem C79_gmsh_tet10_order : gmshTet10 ≠ twiceNodes .TET10 ∧
    (shapeValuesAt .TET10 (((gmshTet10.getD 8 []).getD 0 0 : ℕ) / 2 : ℚ) (((gmshTet10.getD 8 []).getD 1 0 : ℕ) / 2 : ℚ)
      (((gmshTet10.getD 8 []).getD 2 0 : ℕ) / 2 : ℚ)).getD 8 0 = 0 := by decide +kernel

/-! ### Bounds on linear elements -/

/-- The point is in the reference cell of a type. -/
def InCell {K : Type*} [Field K] [LinearOrder K] (e : EleType) (x y z : K) : Prop :=
  match e with
  | .TRI3 | .TRI6 => 0 ≤ x ∧ 0 ≤ y ∧ x + y ≤ 1
  | .QUAD4 | .QUAD8 | .QUAD9 => 0 ≤ x ∧ x ≤ 1 ∧ 0 ≤ y ∧ y ≤ 1
  | .TET4 | .TET10 => 0 ≤ x ∧ 0 ≤ y ∧ 0 ≤ z ∧ x + y + z ≤ 1
  | .HEX8 | .HEX20 => 0 ≤ x ∧ x ≤ 1 ∧ 0 ≤ y ∧ y ≤ 1 ∧ 0 ≤ z ∧ z ≤ 1

/-- Linear shape functions are nonnegative inside the cell. -/
theorem shape_nonneg {K : Type*} [Field K] [LinearOrder K] [IsStrictOrderedRing K] (e : EleType) (he : e.isLagrange)
    (h1 : e.degree = 1) (x y z : K) (hin : InCell e x y z) (a : ℕ) : 0 ≤ (shapeValuesAt e x y z).getD a 0 := by
  have key : ∀ v ∈ shapeValuesAt e x y z, 0 ≤ v := by
    cases e <;> simp [EleType.isLagrange] at he <;> simp [EleType.degree] at h1 <;> simp only [InCell] at hin <;>
      simp [shapeValuesAt, EleType.reOrder, basixValues]
    · obtain ⟨a1, a2, a3, a4, a5, a6⟩ := hin
      have b1 : 0 ≤ 1 - x := by linarith
      have b2 : 0 ≤ 1 - y := by linarith
      have b3 : 0 ≤ 1 - z := by linarith
      refine ⟨?_, ?_, ?_, ?_, ?_, ?_, ?_, ?_⟩ <;> positivity
    · obtain ⟨a1, a2, a3, a4⟩ := hin
      exact ⟨by linarith, a1, a2, a3⟩
    · obtain ⟨a1, a2, a3, a4⟩ := hin
      have b1 : 0 ≤ 1 - x := by linarith
      have b2 : 0 ≤ 1 - y := by linarith
      refine ⟨?_, ?_, ?_, ?_⟩ <;> positivity
    · obtain ⟨a1, a2, a3⟩ := hin
      exact ⟨by linarith, a1, a2⟩
  by_cases h : a < (shapeValuesAt e x y z).length
  · rw [List.getD_eq_getElem _ _ h]; exact key _ (List.getElem_mem h)
  · rw [List.getD_eq_default _ _ (by omega)]

/-- On linear elements an interpolated value never leaves the range of the nodal values. -/
theorem C79_interpolation_bounds {K : Type*} [Field K] [LinearOrder K] [IsStrictOrderedRing K] (e : EleType)
    (he : e.isLagrange) (h1 : e.degree = 1) (x y z : K) (hin : InCell e x y z) (u : Fin e.reOrder.length → K) (lo hi : K)
    (hu : ∀ a, lo ≤ u a ∧ u a ≤ hi) :
    lo ≤ ∑ a, u a * (shapeValuesAt e x y z).getD a 0 ∧ ∑ a, u a * (shapeValuesAt e x y z).getD a 0 ≤ hi := by
  have hp := C79_partition_of_unity e x y z
  constructor
  · calc lo = ∑ a : Fin e.reOrder.length, lo * (shapeValuesAt e x y z).getD a 0 := by rw [← Finset.mul_sum, hp, mul_one]
      _ ≤ _ := Finset.sum_le_sum fun a _ => mul_le_mul_of_nonneg_right (hu a).1 (shape_nonneg e he h1 x y z hin a)
  · calc _ ≤ ∑ a : Fin e.reOrder.length, hi * (shapeValuesAt e x y z).getD a 0 :=
          Finset.sum_le_sum fun a _ => mul_le_mul_of_nonneg_right (hu a).2 (shape_nonneg e he h1 x y z hin a)
      _ = hi := by rw [← Finset.mul_sum, hp, mul_one]

/-- On quadratic elements it can: nodal values between 0 and 1 with an interpolated value of `-1/8` inside the cell. -/
theorem C79_quadratic_overshoot : InCell .TRI6 (1 / 2 : ℚ) (1 / 4) 0 ∧
    (∀ a : Fin 6, (0 : ℚ) ≤ [1, 0, 0, 0, 0, 0].getD a 0 ∧ [1, 0, 0, 0, 0, 0].getD a 0 ≤ (1 : ℚ)) ∧
    ∑ a : Fin 6, [1, 0, 0, 0, 0, 0].getD a 0 * (shapeValuesAt .TRI6 (1 / 2 : ℚ) (1 / 4) 0).getD a 0 = -(1 / 8) := by
  refine ⟨by unfold InCell; decide +kernel, by decide +kernel, by decide +kernel⟩

/-! ### The hypotheses are met -/

example : EleType.isLagrange .TET10 ∧ isQuadratic .TET10 ∧ (∃ a < EleType.reOrder .TET10 |>.length, ¬ OnFacet .TET10 0 a) ∧
    OnFacet .TET10 0 9 ∧ ¬ OnFacet .TET10 0 7 := by
  refine ⟨rfl, Or.inr (Or.inl rfl), ⟨0, by decide, by decide⟩, by decide, by decide⟩

example : faceInds .HEX8 = .ok [[0, 1, 3, 2], [0, 1, 4, 5], [0, 3, 4, 7], [1, 2, 5, 6], [3, 2, 7, 6], [4, 5, 7, 6]] := by
  decide +kernel

example : InCell .HEX8 (1 / 3 : ℚ) (1 / 2) 1 := by unfold InCell; decide +kernel

/-! ## Serendipity types -/

/-- Edges of the serendipity types in the node order of meshio: the two corner nodes and the node between them. -/
def edgesOf : EleType → List (ℕ × ℕ × ℕ)
  | .QUAD8 => [(0, 1, 4), (1, 2, 5), (2, 3, 6), (3, 0, 7)]
  | .HEX20 => [(0, 1, 8), (1, 2, 9), (2, 3, 10), (3, 0, 11), (4, 5, 12), (5, 6, 13), (6, 7, 14), (7, 4, 15), (0, 4, 16), (1, 5, 17),
      (2, 6, 18), (3, 7, 19)]
  | _ => []

/-- The table is the one meant: the third node is the midpoint of the first two, and each node that is not a corner occurs. -/
example : ∀ e ∈ allTypes, (∀ g ∈ edgesOf e, ∀ j < 3, 2 * twiceNode e g.2.2 j = twiceNode e g.1 j + twiceNode e g.2.1 j) ∧
    (¬ e.isLagrange → ∀ m < e.reOrder.length, m < 2 ^ e.dim ∨ ∃ g ∈ edgesOf e, g.2.2 = m) := by decide +kernel

/-- The interpolated field at a point: `∑ₐ Nₐ uₐ`. -/
def interpolateAt {K : Type*} [CommRing K] (e : EleType) (u : ℕ → K) (x y z : K) : K :=
  ∑ a : Fin e.reOrder.length, (shapeValuesAt e x y z).getD a 0 * u a

theorem interpolateAt_eq {K : Type*} [CommRing K] (e : EleType) (u : ℕ → K) (x y z : K) :
    interpolateAt e u x y z = ∑ a ∈ Finset.range e.reOrder.length, (shapeValuesAt e x y z).getD a 0 * u a := by
  rw [interpolateAt, Fin.sum_univ_eq_sum_range (fun a => (shapeValuesAt e x y z).getD a 0 * u a)]

set_option maxHeartbeats 2000000 in
/-- **C79, serendipity types.** Along an edge the field depends on the three nodes of the edge only, so that neighbouring cells
agree on it; but the value stored at the middle node is the average over the edge: the field is the linear one through the
corner values plus `6 s (1 - s)` times the difference of that value to their mean. -/
theorem C79_serendipity_edge {K : Type*} [Field K] [CharZero K] (e : EleType) (g : ℕ × ℕ × ℕ) (hg : g ∈ edgesOf e) (u : ℕ → K)
    (s : K) :
    interpolateAt e u ((1 - s) * nodeCoord K e g.1 0 + s * nodeCoord K e g.2.1 0)
      ((1 - s) * nodeCoord K e g.1 1 + s * nodeCoord K e g.2.1 1) ((1 - s) * nodeCoord K e g.1 2 + s * nodeCoord K e g.2.1 2) =
      (1 - s) * u g.1 + s * u g.2.1 + 6 * s * (1 - s) * (u g.2.2 - (u g.1 + u g.2.1) / 2) := by
  cases e <;> simp only [edgesOf, List.not_mem_nil] at hg <;>
    simp only [List.mem_cons, List.not_mem_nil, or_false] at hg
  · rcases hg with rfl | rfl | rfl | rfl | rfl | rfl | rfl | rfl | rfl | rfl | rfl | rfl <;>
    · simp [interpolateAt_eq, Finset.sum_range_succ, shapeValuesAt, EleType.reOrder, basixValues, serendipityHex, nodeCoord,
        twiceNode, twiceNodes]
      ring
  · rcases hg with rfl | rfl | rfl | rfl <;>
    · simp [interpolateAt_eq, Finset.sum_range_succ, shapeValuesAt, EleType.reOrder, basixValues, serendipityQuad, nodeCoord,
        twiceNode, twiceNodes]
      ring

/-- **C79, serendipity types.** The corner values are the values of the field there; at the middle node of an edge the field is
`3/2` of the stored value less a quarter of the two corner values. -/
theorem C79_serendipity_nodes_partial {K : Type*} [Field K] [CharZero K] (e : EleType) (g : ℕ × ℕ × ℕ) (hg : g ∈ edgesOf e)
    (u : ℕ → K) :
    interpolateAt e u (nodeCoord K e g.1 0) (nodeCoord K e g.1 1) (nodeCoord K e g.1 2) = u g.1 ∧
    interpolateAt e u (nodeCoord K e g.2.1 0) (nodeCoord K e g.2.1 1) (nodeCoord K e g.2.1 2) = u g.2.1 ∧
    interpolateAt e u (nodeCoord K e g.2.2 0) (nodeCoord K e g.2.2 1) (nodeCoord K e g.2.2 2) =
      3 / 2 * u g.2.2 - (u g.1 + u g.2.1) / 4 := by
  have h0 := C79_serendipity_edge e g hg u 0
  have h1 := C79_serendipity_edge e g hg u 1
  have hm := C79_serendipity_edge e g hg u (1 / 2)
  have mid : ∀ j < 3, (1 - 1 / 2) * nodeCoord K e g.1 j + 1 / 2 * nodeCoord K e g.2.1 j = nodeCoord K e g.2.2 j := by
    intro j hj
    have ht : ∀ e ∈ allTypes, ∀ g ∈ edgesOf e, ∀ j < 3, 2 * twiceNode e g.2.2 j = twiceNode e g.1 j + twiceNode e g.2.1 j := by
      decide +kernel
    have := congrArg (Nat.cast (R := K)) (ht e (mem_allTypes e) g hg j hj)
    push_cast at this
    unfold nodeCoord
    linear_combination -(1 / 4) * this
  rw [mid 0 (by omega), mid 1 (by omega), mid 2 (by omega)] at hm
  refine ⟨by simpa using h0, by simpa using h1, ?_⟩
  rw [hm]
  ring

/-- **C79, violated.** On the serendipity types a field does not take the stored value at the middle node of an edge. -/
theorem C79_serendipity_midside_not_nodal (e : EleType) (he : e = .QUAD8 ∨ e = .HEX20) : ∃ m < e.reOrder.length, ∃ u : ℕ → ℚ,
    interpolateAt e u (nodeCoord ℚ e m 0) (nodeCoord ℚ e m 1) (nodeCoord ℚ e m 2) ≠ u m := by
  rcases he with rfl | rfl
  · refine ⟨4, by decide, fun a => if a = 4 then 1 else 0, ?_⟩
    rw [(C79_serendipity_nodes_partial .QUAD8 (0, 1, 4) (by decide) _).2.2]
    norm_num
  · refine ⟨8, by decide, fun a => if a = 8 then 1 else 0, ?_⟩
    rw [(C79_serendipity_nodes_partial .HEX20 (0, 1, 8) (by decide) _).2.2]
    norm_num

/-- **C80, violated on the serendipity types.** Nodal values of `x²` on a `QUAD8` cell: the interpolated field has second derivative 3, not 2. -/
theorem C80_serendipity_curvature_wrong (x y : ℚ) :
    ∑ a : Fin 8, (basixHessAt .QUAD8 x y 0 0 0).getD a 0 * nodeCoord ℚ .QUAD8 a 0 ^ 2 = 3 := by
  have hm : ∀ {R : Type} [CommRing R] (x y z : R),
      moment .QUAD8 (fun a => twiceNode .QUAD8 a 0 ^ 2) x y z = 6 * (x * x) - 2 * x := by
    intro R _ x y z
    rw [moment_eq_range]
    simp [Finset.sum_range_succ, shapeValuesAt, EleType.reOrder, basixValues, serendipityQuad, twiceNode, twiceNodes]
    ring
  have hh : hessMoment .QUAD8 (fun a => twiceNode .QUAD8 a 0 ^ 2) x y 0 0 0 = 12 := by
    rw [hessMoment_eq, gradMoment_eq, hm]
    have f : ∀ {R : Type} [CommRing R] (n : ℕ) [n.AtLeastTwo], (OfNat.ofNat n : DualNumber R).fst = OfNat.ofNat n ∧
        (OfNat.ofNat n : DualNumber R).snd = 0 := fun n _ => ⟨natCast_fst n, natCast_snd n⟩
    simp [f]
    norm_num
  have : (12 : ℚ) = 4 * 3 := by norm_num
  apply mul_left_cancel₀ (show (4 : ℚ) ≠ 0 by norm_num)
  rw [← this, ← hh, hessMoment, Finset.mul_sum]
  refine Finset.sum_congr rfl fun a _ => ?_
  unfold nodeCoord
  push_cast
  ring

end Verif.Props
