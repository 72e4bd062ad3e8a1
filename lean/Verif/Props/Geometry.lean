import Verif.Props.Elements
import Mathlib.Tactic.LinearCombination
import Mathlib.Tactic.NormNum
import Mathlib.Tactic.FinCases
import Mathlib.Algebra.BigOperators.Field
import Mathlib.LinearAlgebra.Matrix.Adjugate
import Mathlib.LinearAlgebra.CrossProduct
import Mathlib.Analysis.Real.Sqrt

/-!
# Finite elements on physical cells: patch test (C78), second derivatives (C80), measures (C81)
-/

namespace Verif.Props

open Verif.Model Matrix

section
variable {K : Type*} [Field K] {d n m : ℕ}

/-! ## Specification -/

/-- Nodal values of the affine field `x ↦ A x + b`. -/
def affineValues {vec : ℕ} (A : Fin vec → Fin d → K) (b : Fin vec → K) (X : Fin n → Fin d → K) (a : Fin n) (v : Fin vec) : K :=
  ∑ i, A v i * X a i + b v

/-- A tabulated element that reproduces constants. -/
structure Consistent (r : RefElem K d n m) : Prop where
  vals : ∀ q, ∑ a, r.vals q a = 1
  grads : ∀ q j, ∑ a, r.grads q a j = 0
  hess : ∀ q i j, ∑ a, r.hess q a i j = 0

/-- A tabulated element that reproduces the reference coordinates `ξ`. -/
structure LinearComplete (r : RefElem K d n m) (ξ : Fin n → Fin d → K) : Prop where
  grads : ∀ q i j, ∑ a, ξ a i * r.grads q a j = if i = j then 1 else 0
  hess : ∀ q k i j, ∑ a, ξ a k * r.hess q a i j = 0

/-- The cell is the image of the reference cell under `ξ ↦ B ξ + c`. -/
def AffineCell (ξ X : Fin n → Fin d → K) (B : Matrix (Fin d) (Fin d) K) (c : Fin d → K) : Prop :=
  ∀ a i, X a i = ∑ j, B i j * ξ a j + c i

/-! ## Elements of the library -/

theorem refElem_consistent (e : EleType) (d : ℕ) (pts : Fin m → K × K × K) (w : Fin m → K) :
    Consistent (e.refElem d pts w) where
  vals q := C79_partition_of_unity e _ _ _
  grads q j := C79_gradients_sum e _ _ _ j
  hess q i j := by
    have := hessMoment_one e (pts q).1 (pts q).2.1 (pts q).2.2 (min i j : ℕ) (max i j : ℕ)
    simpa [hessMoment, EleType.refElem, shapeHessAt] using this

/-- Reference coordinates of the nodes. -/
def refNodes (K : Type*) [Field K] (e : EleType) (a : Fin e.reOrder.length) (i : Fin e.dim) : K := nodeCoord K e a i

theorem refElem_linear [CharZero K] (e : EleType) (pts : Fin m → K × K × K) (w : Fin m → K) :
    LinearComplete (e.refElem e.dim pts w) (refNodes K e) where
  grads q i j := by
    have := C79_gradients_coordinates e (pts q).1 (pts q).2.1 (pts q).2.2 i j i.2 j.2
    simpa [Fin.ext_iff, EleType.refElem, refNodes] using this
  hess q k i j := by
    have h := hessMoment_lin e (pts q).1 (pts q).2.1 (pts q).2.2 k (min i j : ℕ) (max i j : ℕ) k.2
      (by simp)
    unfold hessMoment at h
    apply mul_left_cancel₀ (two_ne_zero (α := K))
    rw [mul_zero, ← h, Finset.mul_sum]
    refine Finset.sum_congr rfl fun a _ => ?_
    rw [← two_mul_nodeCoord]
    simp only [EleType.refElem, shapeHessAt, refNodes]
    ring

/-! ## C78: the patch test -/

theorem gradient_affine {vec : ℕ} (r : RefElem K d n m) (hr : Consistent r) (X : Fin n → Fin d → K) (q : Fin m)
    (hdet : (r.jacobian X q).det ≠ 0) (A : Fin vec → Fin d → K) (b : Fin vec → K) (v : Fin vec) (k : Fin d) :
    r.gradient X (affineValues A b X) q v k = A v k := by
  have hJ : (r.jacobian X q) * (r.jacobian X q)⁻¹ = 1 := Matrix.mul_nonsing_inv _ (isUnit_iff_ne_zero.mpr hdet)
  have h1 : ∀ i, ∑ a, X a i * r.physGrads X q a k = if i = k then 1 else 0 := by
    intro i
    have := congrFun (congrFun hJ i) k
    rw [Matrix.mul_apply, Matrix.one_apply] at this
    rw [← this]
    simp only [RefElem.physGrads, RefElem.jacobian, Matrix.of_apply, Finset.mul_sum, Finset.sum_mul]
    rw [Finset.sum_comm]
    refine Finset.sum_congr rfl fun j _ => Finset.sum_congr rfl fun a _ => by ring
  have h0 : ∑ a, r.physGrads X q a k = 0 := by
    simp only [RefElem.physGrads]
    rw [Finset.sum_comm]
    refine Finset.sum_eq_zero fun j _ => ?_
    rw [← Finset.sum_mul, hr.grads, zero_mul]
  simp only [RefElem.gradient, affineValues, add_mul, Finset.sum_add_distrib, Finset.sum_mul]
  rw [← Finset.mul_sum, h0, mul_zero, add_zero, Finset.sum_comm]
  calc ∑ i, ∑ a, A v i * X a i * r.physGrads X q a k = ∑ i, A v i * ∑ a, X a i * r.physGrads X q a k := by
        refine Finset.sum_congr rfl fun i _ => ?_
        rw [Finset.mul_sum]
        refine Finset.sum_congr rfl fun a _ => by ring
    _ = A v k := by simp [h1]

/-- **C78, gradients.** On any mesh cell whose Jacobian is invertible at a quadrature point, for every element type of the
list and every quadrature rule, the gradient of an affine field is exact. -/
theorem C78_gradient_of_affine_field {vec N C : ℕ} (e : EleType) (pts : Fin m → K × K × K) (w : Fin m → K)
    (points : Fin N → Fin e.dim → K) (cells : Fin C → Fin e.reOrder.length → Fin N) (c : Fin C) (q : Fin m)
    (hdet : ((e.refElem e.dim pts w).jacobian (cellCoords points cells c) q).det ≠ 0)
    (A : Fin vec → Fin e.dim → K) (b : Fin vec → K) (sol : Fin N → Fin vec → K)
    (hsol : ∀ p v, sol p v = ∑ i, A v i * points p i + b v) (v : Fin vec) (k : Fin e.dim) :
    (e.refElem e.dim pts w).gradient (cellCoords points cells c) (cellCoords sol cells c) q v k = A v k := by
  have : cellCoords sol cells c = affineValues A b (cellCoords points cells c) := by
    funext a v; simp [cellCoords, affineValues, hsol]
  rw [this]
  exact gradient_affine _ (refElem_consistent e _ pts w) _ q hdet A b v k

/-- **C78, values.** The interpolated value of an affine field is its value at the physical quadrature point. No condition on
the cell. -/
theorem C78_value_of_affine_field {vec N C : ℕ} (e : EleType) (pts : Fin m → K × K × K) (w : Fin m → K)
    (points : Fin N → Fin e.dim → K) (cells : Fin C → Fin e.reOrder.length → Fin N) (c : Fin C) (q : Fin m)
    (A : Fin vec → Fin e.dim → K) (b : Fin vec → K) (sol : Fin N → Fin vec → K)
    (hsol : ∀ p v, sol p v = ∑ i, A v i * points p i + b v) (v : Fin vec) :
    (e.refElem e.dim pts w).interpolate (cellCoords sol cells c) q v =
      ∑ i, A v i * (e.refElem e.dim pts w).quadPoint (cellCoords points cells c) q i + b v := by
  have h := (refElem_consistent e e.dim pts w).vals q
  generalize e.refElem e.dim pts w = r at h ⊢
  simp only [RefElem.interpolate, RefElem.quadPoint, cellCoords, hsol, add_mul, Finset.sum_add_distrib, Finset.sum_mul,
    Finset.mul_sum]
  congr 1
  · rw [Finset.sum_comm]
    refine Finset.sum_congr rfl fun i _ => Finset.sum_congr rfl fun a _ => by ring
  · rw [← Finset.mul_sum, h, mul_one]

/-- **C78, rigid motion.** A translation has zero gradient, on every cell, however distorted, even a degenerate one. -/
theorem C78_translation_has_no_gradient {vec : ℕ} (e : EleType) (pts : Fin m → K × K × K) (w : Fin m → K)
    (X : Fin e.reOrder.length → Fin e.dim → K) (q : Fin m) (b : Fin vec → K) (v : Fin vec) (k : Fin e.dim) :
    (e.refElem e.dim pts w).gradient X (fun _ => b) q v k = 0 := by
  have h := (refElem_consistent e e.dim pts w).grads q
  simp only [RefElem.gradient, RefElem.physGrads]
  rw [← Finset.mul_sum, Finset.sum_comm]
  rw [Finset.sum_eq_zero, mul_zero]
  intro j _
  rw [← Finset.sum_mul, h, zero_mul]

/-- **C78, linearity.** Gradients depend linearly on the solution. -/
theorem C78_gradient_linear {vec : ℕ} (r : RefElem K d n m) (X : Fin n → Fin d → K) (u u' : Fin n → Fin vec → K) (s : K)
    (q : Fin m) (v : Fin vec) (k : Fin d) :
    r.gradient X (fun a v => u a v + s * u' a v) q v k = r.gradient X u q v k + s * r.gradient X u' q v k := by
  simp only [RefElem.gradient, Finset.mul_sum, ← Finset.sum_add_distrib]
  refine Finset.sum_congr rfl fun a _ => by ring

/-- Where the Jacobian is singular the exactness fails (the code divides by zero there): all nodes at one point. -/
theorem C78_degenerate_cell :
    ((EleType.TRI3.refElem 2 (fun _ : Fin 1 => ((1 / 3 : ℚ), 1 / 3, 0)) fun _ => 1 / 2).jacobian (fun _ _ => 1) 0).det = 0 := by
  have h := (refElem_consistent (K := ℚ) .TRI3 2 (fun _ : Fin 1 => ((1 / 3 : ℚ), 1 / 3, 0)) fun _ => 1 / 2).grads 0
  have : (EleType.TRI3.refElem 2 (fun _ : Fin 1 => ((1 / 3 : ℚ), 1 / 3, 0)) fun _ => 1 / 2).jacobian (fun _ _ => 1) 0 = 0 := by
    ext i j
    simp only [RefElem.jacobian, Matrix.of_apply, one_mul]
    exact h j
  rw [this]; simp

/-! ## C81: measures -/

/-- The Jacobian of an affine cell is the linear part of its map. -/
theorem jacobian_affine (r : RefElem K d n m) (hr : Consistent r) (ξ X : Fin n → Fin d → K) (hl : LinearComplete r ξ)
    (B : Matrix (Fin d) (Fin d) K) (c : Fin d → K) (hX : AffineCell ξ X B c) (q : Fin m) : r.jacobian X q = B := by
  ext i j
  simp only [RefElem.jacobian, Matrix.of_apply]
  have hX' : ∀ a i, X a i = (∑ j, B i j * ξ a j) + c i := hX
  simp only [hX', add_mul, Finset.sum_add_distrib, Finset.sum_mul]
  rw [← Finset.mul_sum, hr.grads, mul_zero, add_zero, Finset.sum_comm]
  calc ∑ k, ∑ a, B i k * ξ a k * r.grads q a j = ∑ k, B i k * ∑ a, ξ a k * r.grads q a j := by
        refine Finset.sum_congr rfl fun k _ => ?_
        rw [Finset.mul_sum]; refine Finset.sum_congr rfl fun a _ => by ring
    _ = B i j := by simp [hl.grads]

/-- **C81, affine cells.** The weights of a cell that is the image of the reference cell under `ξ ↦ B ξ + c` are the
reference weights times `det B`; its volume is `det B` times the reference volume. -/
theorem C81_affine_cell [CharZero K] (e : EleType) (pts : Fin m → K × K × K) (w : Fin m → K)
    (X : Fin e.reOrder.length → Fin e.dim → K) (B : Matrix (Fin e.dim) (Fin e.dim) K) (c : Fin e.dim → K)
    (hX : AffineCell (refNodes K e) X B c) :
    (∀ q, (e.refElem e.dim pts w).JxW X q = B.det * w q) ∧ ∑ q, (e.refElem e.dim pts w).JxW X q = B.det * ∑ q, w q := by
  have h : ∀ q, (e.refElem e.dim pts w).JxW X q = B.det * w q := fun q => by
    rw [RefElem.JxW, jacobian_affine _ (refElem_consistent e _ pts w) _ X (refElem_linear e pts w) B c hX]; rfl
  exact ⟨h, by simp only [h, Finset.mul_sum]⟩

/-- Transforming all node coordinates by `x ↦ B x + c` multiplies the Jacobian by `B`. -/
theorem jacobian_transform (r : RefElem K d n m) (hr : Consistent r) (X : Fin n → Fin d → K) (B : Matrix (Fin d) (Fin d) K)
    (c : Fin d → K) (q : Fin m) : r.jacobian (affineValues B c X) q = B * r.jacobian X q := by
  ext i j
  simp only [RefElem.jacobian, affineValues, Matrix.of_apply, Matrix.mul_apply, add_mul, Finset.sum_add_distrib,
    Finset.sum_mul, Finset.mul_sum]
  rw [← Finset.mul_sum, hr.grads, mul_zero, add_zero, Finset.sum_comm]
  refine Finset.sum_congr rfl fun k _ => Finset.sum_congr rfl fun a _ => by ring

/-- **C81, change of coordinates.** Under an affine change of the node coordinates, the integration weights are multiplied by
its determinant: translations and rotations leave every integral over the mesh unchanged. -/
theorem C81_weights_transform (e : EleType) (pts : Fin m → K × K × K) (w : Fin m → K)
    (X : Fin e.reOrder.length → Fin e.dim → K) (B : Matrix (Fin e.dim) (Fin e.dim) K) (c : Fin e.dim → K) (q : Fin m) :
    (e.refElem e.dim pts w).JxW (affineValues B c X) q = B.det * (e.refElem e.dim pts w).JxW X q := by
  rw [RefElem.JxW, RefElem.JxW, jacobian_transform _ (refElem_consistent e _ pts w), Matrix.det_mul, mul_assoc]

/-- **C81, change of coordinates, gradients.** The gradient of the same nodal values on the transformed mesh is the old
gradient times `B⁻¹`: the chain rule. -/
theorem C81_gradients_transform {vec : ℕ} (e : EleType) (pts : Fin m → K × K × K) (w : Fin m → K)
    (X : Fin e.reOrder.length → Fin e.dim → K) (B : Matrix (Fin e.dim) (Fin e.dim) K) (c : Fin e.dim → K) (q : Fin m)
    (u : Fin e.reOrder.length → Fin vec → K) (v : Fin vec) (k : Fin e.dim) :
    (e.refElem e.dim pts w).gradient (affineValues B c X) u q v k =
      ∑ l, (e.refElem e.dim pts w).gradient X u q v l * B⁻¹ l k := by
  have hJ := jacobian_transform _ (refElem_consistent e e.dim pts w) X B c q
  generalize e.refElem e.dim pts w = r at hJ ⊢
  simp only [RefElem.gradient, RefElem.physGrads, hJ, Matrix.mul_inv_rev, Matrix.mul_apply, Finset.mul_sum, Finset.sum_mul]
  conv_rhs => rw [Finset.sum_comm]
  refine Finset.sum_congr rfl fun a _ => ?_
  rw [Finset.sum_comm]
  refine Finset.sum_congr rfl fun l _ => Finset.sum_congr rfl fun j _ => by ring

/-! ## C80: second derivatives -/

theorem hess_moments_affine (r : RefElem K d n m) (hr : Consistent r) (ξ X : Fin n → Fin d → K) (hl : LinearComplete r ξ)
    (B : Matrix (Fin d) (Fin d) K) (c : Fin d → K) (hX : AffineCell ξ X B c) (q : Fin m) (i j k : Fin d) :
    ∑ a, X a k * r.hess q a i j = 0 := by
  have hX' : ∀ a i, X a i = (∑ j, B i j * ξ a j) + c i := hX
  simp only [hX', add_mul, Finset.sum_add_distrib, Finset.sum_mul]
  rw [← Finset.mul_sum, hr.hess, mul_zero, add_zero, Finset.sum_comm]
  refine Finset.sum_eq_zero fun l _ => ?_
  have : ∑ a, B k l * ξ a l * r.hess q a i j = B k l * ∑ a, ξ a l * r.hess q a i j := by
    rw [Finset.mul_sum]; refine Finset.sum_congr rfl fun a _ => by ring
  rw [this, hl.hess, mul_zero]

/-- `∑ₐ cₐ ∂²Nₐ` in physical coordinates from the moments in reference coordinates. -/
theorem physHess_moment (r : RefElem K d n m) (X : Fin n → Fin d → K) (q : Fin m) (c : Fin n → K) (k l : Fin d) :
    ∑ a, c a * r.physHess X q a k l =
      ∑ i, ∑ j, (∑ a, c a * r.hess q a i j) * (r.jacobian X q)⁻¹ i k * (r.jacobian X q)⁻¹ j l := by
  simp only [RefElem.physHess, Finset.mul_sum, Finset.sum_mul]
  rw [Finset.sum_comm]
  refine Finset.sum_congr rfl fun i _ => ?_
  rw [Finset.sum_comm]
  refine Finset.sum_congr rfl fun j _ => Finset.sum_congr rfl fun a _ => by ring

/-- **C80, affine fields (proved part).** On cells that are affine images of the reference cell, the second derivatives of an
affine field vanish, for every element type and quadrature rule. -/
theorem C80_affine_field_partial [CharZero K] {vec : ℕ} (e : EleType) (pts : Fin m → K × K × K)
    (w : Fin m → K) (X : Fin e.reOrder.length → Fin e.dim → K) (B : Matrix (Fin e.dim) (Fin e.dim) K) (c : Fin e.dim → K)
    (hX : AffineCell (refNodes K e) X B c) (A : Fin vec → Fin e.dim → K) (b : Fin vec → K) (q : Fin m) (v : Fin vec)
    (k l : Fin e.dim) : (e.refElem e.dim pts w).hessian X (affineValues A b X) q v k l = 0 := by
  have hr := refElem_consistent e e.dim pts w
  have hl := refElem_linear e pts w
  have hm := hess_moments_affine _ hr _ X hl B c hX q
  generalize e.refElem e.dim pts w = r at hr hm ⊢
  have h : r.hessian X (affineValues A b X) q v k l = ∑ a, affineValues A b X a v * r.physHess X q a k l := rfl
  rw [h, physHess_moment]
  refine Finset.sum_eq_zero fun i _ => Finset.sum_eq_zero fun j _ => ?_
  have : ∑ a, affineValues A b X a v * r.hess q a i j = 0 := by
    simp only [affineValues, add_mul, Finset.sum_add_distrib, Finset.sum_mul]
    rw [← Finset.mul_sum, hr.hess, mul_zero, add_zero, Finset.sum_comm]
    refine Finset.sum_eq_zero fun p _ => ?_
    have : ∑ a, A v p * X a p * r.hess q a i j = A v p * ∑ a, X a p * r.hess q a i j := by
      rw [Finset.mul_sum]; refine Finset.sum_congr rfl fun a _ => by ring
    rw [this, hm, mul_zero]
  rw [this, zero_mul, zero_mul]

/-- Nodal values of the quadratic field `x ↦ ½ xᵀ Q x + A x + b`. -/
def quadraticValues {vec : ℕ} (Q : Fin vec → Fin d → Fin d → K) (A : Fin vec → Fin d → K) (b : Fin vec → K)
    (X : Fin n → Fin d → K) (a : Fin n) (v : Fin vec) : K :=
  (∑ i, ∑ j, Q v i j * X a i * X a j) / 2 + affineValues A b X a v

theorem refElem_quadratic [CharZero K] (e : EleType) (he : isQuadratic e) (pts : Fin m → K × K × K) (w : Fin m → K) (q : Fin m)
    (k l i j : Fin e.dim) : ∑ a, refNodes K e a k * refNodes K e a l * (e.refElem e.dim pts w).hess q a i j =
      (if k = i ∧ l = j then 1 else 0) + if k = j ∧ l = i then 1 else 0 := by
  have h := hessMoment_quad e he (pts q).1 (pts q).2.1 (pts q).2.2 k l (min i j : ℕ) (max i j : ℕ) k.2 l.2 (by simp) (by simp)
  unfold hessMoment at h
  have h4 : (4 : K) ≠ 0 := by norm_num
  apply mul_left_cancel₀ h4
  have e1 : (4 : K) * ∑ a, refNodes K e a k * refNodes K e a l * (e.refElem e.dim pts w).hess q a i j =
      ∑ a : Fin e.reOrder.length, (basixHessAt e (pts q).1 (pts q).2.1 (pts q).2.2 (min i j : ℕ) (max i j : ℕ)).getD a 0 *
        ((twiceNode e a k * twiceNode e a l : ℕ) : K) := by
    rw [Finset.mul_sum]
    refine Finset.sum_congr rfl fun a _ => ?_
    push_cast
    rw [← two_mul_nodeCoord, ← two_mul_nodeCoord]
    simp only [EleType.refElem, shapeHessAt, refNodes]
    ring
  rw [e1, h]
  congr 1
  rcases le_total i j with hij | hij
  · have : (i : ℕ) ≤ j := hij
    simp only [min_eq_left this, max_eq_right this, Fin.ext_iff]
    rw [add_comm]; simp only [and_comm]
  · have : (j : ℕ) ≤ i := hij
    simp only [min_eq_right this, max_eq_left this, Fin.ext_iff]
    simp only [and_comm]

/-- **C80, quadratic fields (proved part).** On affine cells of the types with a complete quadratic basis (`TRI6`, `TET10`,
`QUAD9`), the second derivatives of every quadratic field are exact. -/
theorem C80_quadratic_field_partial [CharZero K] {vec : ℕ} (e : EleType) (he : isQuadratic e) (pts : Fin m → K × K × K)
    (w : Fin m → K) (X : Fin e.reOrder.length → Fin e.dim → K) (B : Matrix (Fin e.dim) (Fin e.dim) K) (c : Fin e.dim → K)
    (hB : B.det ≠ 0) (hX : AffineCell (refNodes K e) X B c) (Q : Fin vec → Fin e.dim → Fin e.dim → K)
    (hQ : ∀ v i j, Q v i j = Q v j i) (A : Fin vec → Fin e.dim → K) (b : Fin vec → K) (q : Fin m) (v : Fin vec)
    (k l : Fin e.dim) : (e.refElem e.dim pts w).hessian X (quadraticValues Q A b X) q v k l = Q v k l := by
  have hr := refElem_consistent e e.dim pts w
  have hl := refElem_linear e pts w
  have hq := refElem_quadratic e he pts w q
  have h0 := C80_affine_field_partial e pts w X B c hX A b q v k l
  have hm := fun i j k => hess_moments_affine _ hr _ X hl B c hX q i j k
  have hJ : (e.refElem e.dim pts w).jacobian X q = B := jacobian_affine _ hr _ X hl B c hX q
  generalize e.refElem e.dim pts w = r at *
  -- moments of products of coordinates
  have hX' : ∀ a i, X a i = (∑ j, B i j * refNodes K e a j) + c i := hX
  have hp : ∀ s t i j, ∑ a, X a s * X a t * r.hess q a i j = B s i * B t j + B s j * B t i := by
    intro s t i j
    have e1 : ∀ a, X a s * X a t * r.hess q a i j =
        (∑ x, ∑ y, B s x * B t y * (refNodes K e a x * refNodes K e a y * r.hess q a i j)) +
          c t * (X a s * r.hess q a i j) + c s * (X a t * r.hess q a i j) - c s * c t * r.hess q a i j := by
      intro a
      have : (∑ x, ∑ y, B s x * B t y * (refNodes K e a x * refNodes K e a y * r.hess q a i j)) =
          (X a s - c s) * (X a t - c t) * r.hess q a i j := by
        rw [hX' a s, hX' a t, add_sub_cancel_right, add_sub_cancel_right, Finset.sum_mul_sum, Finset.sum_mul]
        refine Finset.sum_congr rfl fun x _ => ?_
        rw [Finset.sum_mul]
        refine Finset.sum_congr rfl fun y _ => by ring
      rw [this]; ring
    simp only [e1, Finset.sum_sub_distrib, Finset.sum_add_distrib, ← Finset.mul_sum]
    rw [hm i j s, hm i j t, hr.hess, mul_zero, mul_zero, mul_zero, add_zero, add_zero, sub_zero, Finset.sum_comm]
    have e2 : ∀ x, ∑ a, ∑ y, B s x * B t y * (refNodes K e a x * refNodes K e a y * r.hess q a i j) =
        ∑ y, B s x * B t y * ((if x = i ∧ y = j then 1 else 0) + if x = j ∧ y = i then 1 else 0) := by
      intro x
      rw [Finset.sum_comm]
      refine Finset.sum_congr rfl fun y _ => ?_
      rw [← Finset.mul_sum, hq]
    simp only [e2, mul_add, Finset.sum_add_distrib]
    congr 1
    · rw [Finset.sum_eq_single i, Finset.sum_eq_single j] <;> simp (config := { contextual := true })
    · rw [Finset.sum_eq_single j, Finset.sum_eq_single i] <;> simp (config := { contextual := true })
  let M : Matrix (Fin e.dim) (Fin e.dim) K := Matrix.of (Q v)
  have hquad : ∀ i j, ∑ a, (∑ s, ∑ t, Q v s t * X a s * X a t) / 2 * r.hess q a i j = (Bᵀ * M * B) i j := by
    intro i j
    have e1 : ∑ a, (∑ s, ∑ t, Q v s t * X a s * X a t) / 2 * r.hess q a i j =
        (∑ s, ∑ t, Q v s t * ∑ a, X a s * X a t * r.hess q a i j) / 2 := by
      simp only [Finset.mul_sum, Finset.sum_div, Finset.sum_mul]
      rw [Finset.sum_comm]
      refine Finset.sum_congr rfl fun s _ => ?_
      rw [Finset.sum_comm]
      refine Finset.sum_congr rfl fun t _ => Finset.sum_congr rfl fun a _ => by ring
    rw [e1]
    have e2 : ∑ s, ∑ t, Q v s t * (B s i * B t j) = (Bᵀ * M * B) i j := by
      rw [Matrix.mul_apply, Finset.sum_comm]
      refine Finset.sum_congr rfl fun t _ => ?_
      rw [Matrix.mul_apply, Finset.sum_mul]
      refine Finset.sum_congr rfl fun s _ => ?_
      simp only [Matrix.transpose_apply, M, Matrix.of_apply]; ring
    have e3 : ∑ s, ∑ t, Q v s t * (B s j * B t i) = (Bᵀ * M * B) i j := by
      rw [← e2, Finset.sum_comm]
      refine Finset.sum_congr rfl fun s _ => Finset.sum_congr rfl fun t _ => ?_
      rw [hQ v t s]; ring
    simp only [hp, mul_add, Finset.sum_add_distrib, e2, e3]
    ring
  have hinv : B * B⁻¹ = 1 := Matrix.mul_nonsing_inv _ (isUnit_iff_ne_zero.mpr hB)
  have hfin : (B⁻¹)ᵀ * (Bᵀ * M * B) * B⁻¹ = M := by
    have : (B⁻¹)ᵀ * (Bᵀ * M * B) * B⁻¹ = (B * B⁻¹)ᵀ * M * (B * B⁻¹) := by
      rw [Matrix.transpose_mul]; simp only [Matrix.mul_assoc]
    rw [this, hinv]; simp
  have hsplit : r.hessian X (quadraticValues Q A b X) q v k l =
      (∑ a, (∑ s, ∑ t, Q v s t * X a s * X a t) / 2 * r.physHess X q a k l) +
        r.hessian X (affineValues A b X) q v k l := by
    simp only [RefElem.hessian, quadraticValues, add_mul, Finset.sum_add_distrib]
  rw [hsplit, h0, add_zero, physHess_moment, hJ]
  have := congrFun (congrFun hfin k) l
  have hM : M k l = Q v k l := rfl
  rw [hM] at this
  rw [← this, Matrix.mul_apply]
  simp only [hquad, Matrix.mul_apply (M := (B⁻¹)ᵀ), Matrix.transpose_apply, Finset.sum_mul]
  rw [Finset.sum_comm]
  refine Finset.sum_congr rfl fun j _ => Finset.sum_congr rfl fun i _ => by ring
end

/-- The trapezoid with corners `(0, 0)`, `(2, 0)`, `(1, 1)`, `(0, 1)`. -/
def exTrapezoid (a : Fin EleType.QUAD4.reOrder.length) (i : Fin 2) : ℚ := ([[0, 0], [2, 0], [1, 1], [0, 1]].getD a []).getD i 0

/-- **C80 fails on straight-edged cells in general.** On a trapezoid, a straight-edged `QUAD4` cell with positive Jacobian, the
field `u = x` is given the mixed second derivative `-2/3`; the docstring declares the formula valid for straight-edged
elements. -/
theorem C80_trapezoid_violated :
    let r := EleType.QUAD4.refElem 2 (fun _ : Fin 1 => ((1 / 2 : ℚ), 1 / 2, 0)) fun _ => 1
    (r.jacobian exTrapezoid 0).det = 3 / 2 ∧
      r.hessian exTrapezoid (affineValues (fun _ : Fin 1 => ![1, 0]) (fun _ => 0) exTrapezoid) 0 0 0 1 = -(2 / 3) := by
  intro r
  have hJ : r.jacobian exTrapezoid 0 = !![3 / 2, -(1 / 2); 0, 1] := by
    have : ∀ i j : Fin 2, ∑ a, exTrapezoid a i * r.grads 0 a j =
        (if i = 0 then (if j = 0 then 3 / 2 else -(1 / 2)) else (if j = 0 then 0 else 1) : ℚ) := by decide +kernel
    ext i j
    rw [RefElem.jacobian, Matrix.of_apply, this]
    fin_cases i <;> fin_cases j <;> rfl
  have hd : (r.jacobian exTrapezoid 0).det = 3 / 2 := by rw [hJ, Matrix.det_fin_two_of]; norm_num
  refine ⟨hd, ?_⟩
  have hinv : (r.jacobian exTrapezoid 0)⁻¹ = !![2 / 3, 1 / 3; 0, 1] := by
    rw [Matrix.inv_def, hd, hJ, Matrix.adjugate_fin_two_of]
    ext i j
    fin_cases i <;> fin_cases j <;> norm_num
  have h := physHess_moment r exTrapezoid 0 (fun a => affineValues (fun _ : Fin 1 => ![1, 0]) (fun _ => 0) exTrapezoid a 0) 0 1
  have hh : ∀ i j : Fin 2, ∑ a, affineValues (fun _ : Fin 1 => ![1, 0]) (fun _ => 0) exTrapezoid a 0 * r.hess 0 a i j =
      (if i = j then 0 else -1 : ℚ) := by decide +kernel
  rw [hinv] at h
  simp only [hh] at h
  change ∑ a, affineValues (fun _ : Fin 1 => ![1, 0]) (fun _ => 0) exTrapezoid a 0 * r.physHess exTrapezoid 0 a 0 1 = _
  rw [h]
  simp [Fin.sum_univ_two]

/-! ## C81: surface measures -/

/-- Euclidean length. -/
noncomputable def length {d : ℕ} (v : Fin d → ℝ) : ℝ := Real.sqrt (∑ i, v i ^ 2)

theorem length_smul {d : ℕ} (s : ℝ) (v : Fin d → ℝ) : length (s • v) = |s| * length v := by
  unfold length
  have : ∑ i, (s • v) i ^ 2 = s ^ 2 * ∑ i, v i ^ 2 := by
    rw [Finset.mul_sum]; refine Finset.sum_congr rfl fun i _ => by simp [mul_pow]
  rw [this, Real.sqrt_mul (sq_nonneg s), Real.sqrt_sq_eq_abs]

/-- A quarter turn. -/
def turn (t : Fin 2 → ℝ) : Fin 2 → ℝ := ![t 1, -t 0]

theorem length_turn (t : Fin 2 → ℝ) : length (turn t) = length t := by
  unfold length turn; congr 1; simp [Fin.sum_univ_two, add_comm]

section
variable {n m : ℕ}

theorem nanson_turn (J : Matrix (Fin 2) (Fin 2) ℝ) (hJ : J.det ≠ 0) (t : Fin 2 → ℝ) :
    J.det • (turn t ᵥ* J⁻¹) = turn (J *ᵥ t) := by
  rw [Matrix.inv_def, Ring.inverse_eq_inv', Matrix.vecMul_smul, smul_smul, mul_inv_cancel₀ hJ, one_smul,
    Matrix.adjugate_fin_two]
  ext k
  fin_cases k <;> simp [turn, Matrix.vecMul, Matrix.mulVec, dotProduct, Fin.sum_univ_two] <;> ring

theorem nanson_cross (J : Matrix (Fin 3) (Fin 3) ℝ) (hJ : J.det ≠ 0) (s t : Fin 3 → ℝ) :
    J.det • ((crossProduct s t) ᵥ* J⁻¹) = crossProduct (J *ᵥ s) (J *ᵥ t) := by
  rw [Matrix.inv_def, Ring.inverse_eq_inv', Matrix.vecMul_smul, smul_smul, mul_inv_cancel₀ hJ, one_smul,
    Matrix.adjugate_fin_three]
  ext k
  fin_cases k <;> simp [cross_apply, Matrix.vecMul, Matrix.mulVec, dotProduct, Fin.sum_univ_three] <;> ring

theorem nansonScale_of {d : ℕ} (r : RefElem ℝ d n m) (N : Fin d → ℝ) (X : Fin n → Fin d → ℝ) (q : Fin m) (σ c : ℝ)
    (hσ : |σ| = 1) (hc : 0 < c) (ν y : Fin d → ℝ) (hN : N = (σ / c) • ν) (w : ℝ) (hw : r.weights q = w * c)
    (hJ : 0 < (r.jacobian X q).det) (hν : (r.jacobian X q).det • (ν ᵥ* (r.jacobian X q)⁻¹) = y) :
    r.nansonScale length N X q = length y * w := by
  have h1 : r.nansonVector N X q = (σ / c) • (ν ᵥ* (r.jacobian X q)⁻¹) := by
    rw [hN, ← Matrix.smul_vecMul]; rfl
  unfold RefElem.nansonScale
  rw [h1, ← hν, length_smul, length_smul, hw, abs_div, hσ, abs_of_pos hc, abs_of_pos hJ]
  field_simp

/-- **C81, edges in the plane.** Where the Jacobian is positive, the surface weight of a reference edge with direction `t`
(unit normal `±` the quarter turn of `t` over its length, reference weight `w |t|`) is `w` times the length of `J t`, the image
of the edge direction. -/
theorem C81_edge_measure (r : RefElem ℝ 2 n m) (X : Fin n → Fin 2 → ℝ) (q : Fin m) (t : Fin 2 → ℝ) (ht : 0 < length t) (σ w : ℝ)
    (hσ : |σ| = 1) (hw : r.weights q = w * length t) (hJ : 0 < (r.jacobian X q).det) :
    r.nansonScale length ((σ / length t) • turn t) X q = length (r.jacobian X q *ᵥ t) * w := by
  rw [nansonScale_of r _ X q σ (length t) hσ ht (turn t) _ rfl w hw hJ (nanson_turn _ hJ.ne' t), length_turn]

/-- **C81, faces in space.** Where the Jacobian is positive, the surface weight of a reference face with edge directions `s`,
`t` is `w` times the area of the parallelogram spanned by `J s` and `J t`. -/
theorem C81_face_measure (r : RefElem ℝ 3 n m) (X : Fin n → Fin 3 → ℝ) (q : Fin m) (s t : Fin 3 → ℝ)
    (ht : 0 < length (crossProduct s t)) (σ w : ℝ) (hσ : |σ| = 1) (hw : r.weights q = w * length (crossProduct s t))
    (hJ : 0 < (r.jacobian X q).det) :
    r.nansonScale length ((σ / length (crossProduct s t)) • crossProduct s t) X q =
      length (crossProduct (r.jacobian X q *ᵥ s) (r.jacobian X q *ᵥ t)) * w :=
  nansonScale_of r _ X q σ _ hσ ht _ _ rfl w hw hJ (nanson_cross _ hJ.ne' s t)

/-- On an inverted cell the surface weight is negative: the sign of the Jacobian is kept. -/
theorem C81_inverted_cell_negative (r : RefElem ℝ 2 n m) (X : Fin n → Fin 2 → ℝ) (q : Fin m) (N : Fin 2 → ℝ)
    (hw : 0 ≤ r.weights q) (hJ : (r.jacobian X q).det < 0) : r.nansonScale length N X q ≤ 0 ∧ r.JxW X q ≤ 0 := by
  constructor
  · unfold RefElem.nansonScale
    have : 0 ≤ length (r.nansonVector N X q) := Real.sqrt_nonneg _
    exact mul_nonpos_of_nonpos_of_nonneg (mul_nonpos_of_nonneg_of_nonpos this hJ.le) hw
  · exact mul_nonpos_of_nonpos_of_nonneg hJ.le hw

/-! ### Straight edges of plane cells -/

/-- The corners of facet `f` of a triangle or quadrilateral, as local nodes. -/
def edgeNodes (e : EleType) (f : ℕ) : ℕ × ℕ :=
  match faceInds e with
  | .ok F => ((F.getD f []).getD 0 0, (F.getD f []).getD 1 0)
  | .error _ => (0, 0)

/-- Direction of facet `f` of the reference cell. -/
def edgeDir (R : Type*) [CommRing R] (e : EleType) (f : ℕ) (j : ℕ) : R :=
  (((basixVertices e).getD (((basixFacets e).getD f []).getD 1 0) []).getD j 0 : ℕ) -
    (((basixVertices e).getD (((basixFacets e).getD f []).getD 0 0) []).getD j 0 : ℕ)

set_option maxHeartbeats 1000000 in
/-- Derivatives of the shape functions along an edge: 1 and -1 at its ends, 0 elsewhere. -/
theorem edge_derivative {R : Type*} [CommRing R] (e : EleType) (he : e = .TRI3 ∨ e = .QUAD4) (f : ℕ)
    (hf : f < (basixFacets e).length) (s : R) (a : ℕ) (ha : a < e.reOrder.length) :
    (shapeGradAt e (mappedPoint e f s 0 0) (mappedPoint e f s 0 1) (mappedPoint e f s 0 2) 0).getD a 0 * edgeDir R e f 0 +
      (shapeGradAt e (mappedPoint e f s 0 0) (mappedPoint e f s 0 1) (mappedPoint e f s 0 2) 1).getD a 0 * edgeDir R e f 1 =
      (if a = (edgeNodes e f).2 then 1 else 0) - if a = (edgeNodes e f).1 then 1 else 0 := by
  have t3 : faceInds .TRI3 = .ok [[1, 2], [0, 2], [0, 1]] := by decide +kernel
  have q4 : faceInds .QUAD4 = .ok [[0, 1], [0, 3], [1, 2], [3, 2]] := by decide +kernel
  rcases he with rfl | rfl
  · simp [basixFacets] at hf
    simp [EleType.reOrder] at ha
    interval_cases f <;> interval_cases a <;>
      simp [shapeGradAt, shapeValuesAt, EleType.reOrder, basixValues, mappedPoint, basixFacets, basixVertices, facetValues,
        edgeDir, edgeNodes, t3]
  · simp [basixFacets] at hf
    simp [EleType.reOrder] at ha
    interval_cases f <;> interval_cases a <;>
      simp [shapeGradAt, shapeValuesAt, EleType.reOrder, basixValues, mappedPoint, basixFacets, basixVertices, facetValues,
        edgeDir, edgeNodes, q4]

/-- **C81, straight edges.** For triangles and bilinear quadrilaterals, distorted or not: on an edge where the Jacobian is
positive, the surface weight at every face quadrature point is the reference weight times the distance between the two end
nodes; summed with weights adding up to 1 it is the length of the edge. -/
theorem C81_edge_length (e : EleType) (he : e = .TRI3 ∨ e = .QUAD4) (f : ℕ) (hf : f < (basixFacets e).length) (s w : Fin m → ℝ)
    (X : Fin e.reOrder.length → Fin 2 → ℝ) (σ : ℝ) (hσ : |σ| = 1) (ia ib : Fin e.reOrder.length)
    (hia : (ia : ℕ) = (edgeNodes e f).1) (hib : (ib : ℕ) = (edgeNodes e f).2) :
    let t : Fin 2 → ℝ := fun j => edgeDir ℝ e f j
    let r := e.refElem 2 (fun q => (mappedPoint e f (s q) 0 0, mappedPoint e f (s q) 0 1, mappedPoint e f (s q) 0 2))
      fun q => w q * length t
    ∀ _hJ : ∀ q, 0 < (r.jacobian X q).det,
      (∀ q, r.nansonScale length ((σ / length t) • turn t) X q = length (fun i => X ib i - X ia i) * w q) ∧
      (∑ q, w q = 1 → ∑ q, r.nansonScale length ((σ / length t) • turn t) X q = length (fun i => X ib i - X ia i)) := by
  intro t r hJ
  have ht : 0 < length t := by
    apply Real.sqrt_pos.mpr
    rw [Fin.sum_univ_two]
    simp only [t]
    rcases he with rfl | rfl <;> simp [basixFacets] at hf <;> interval_cases f <;>
      norm_num [edgeDir, basixFacets, basixVertices]
  have key : ∀ q, r.nansonScale length ((σ / length t) • turn t) X q = length (fun i => X ib i - X ia i) * w q := by
    intro q
    rw [C81_edge_measure r X q t ht σ (w q) hσ rfl (hJ q)]
    congr 2
    funext i
    have hd := edge_derivative e he f hf (s q)
    have : (r.jacobian X q *ᵥ t) i = ∑ a, X a i * (r.grads q a 0 * t 0 + r.grads q a 1 * t 1) := by
      simp only [Matrix.mulVec, dotProduct, RefElem.jacobian, Matrix.of_apply, Fin.sum_univ_two, Finset.sum_mul, ←
        Finset.sum_add_distrib]
      refine Finset.sum_congr rfl fun a _ => by ring
    rw [this]
    have e2 : ∀ a : Fin e.reOrder.length, r.grads q a 0 * t 0 + r.grads q a 1 * t 1 =
        (if a = ib then 1 else 0) - if a = ia then 1 else 0 := by
      intro a
      have := hd a a.2
      simp only [Fin.ext_iff, hia, hib]
      exact this
    simp [e2, mul_sub, Finset.sum_sub_distrib]
  exact ⟨key, fun h1 => by simp only [key, ← Finset.mul_sum, h1, mul_one]⟩

/-- **C81, simplices.** The Jacobian of every triangle and tetrahedron is the matrix of its edge vectors from the first node,
at every quadrature point. -/
theorem C81_triangle {K : Type*} [Field K] [CharZero K] (pts : Fin m → K × K × K) (w : Fin m → K)
    (X : Fin 3 → Fin 2 → K) (q : Fin m) :
    (EleType.TRI3.refElem 2 pts w).JxW X q =
      ((X 1 0 - X 0 0) * (X 2 1 - X 0 1) - (X 2 0 - X 0 0) * (X 1 1 - X 0 1)) * w q := by
  have h := (C81_affine_cell .TRI3 pts w X !![X 1 0 - X 0 0, X 2 0 - X 0 0; X 1 1 - X 0 1, X 2 1 - X 0 1] (X 0) (by
    have : ∀ (a : Fin 3) (i : Fin 2), X a i = ∑ j : Fin 2,
        (!![X 1 0 - X 0 0, X 2 0 - X 0 0; X 1 1 - X 0 1, X 2 1 - X 0 1] : Matrix (Fin 2) (Fin 2) K) i j *
          nodeCoord K .TRI3 a j + X 0 i := by
      intro a i
      fin_cases a <;> fin_cases i <;> simp [nodeCoord, twiceNode, twiceNodes, Fin.sum_univ_two]
    exact this)).1 q
  have h2 := Matrix.det_fin_two_of (X 1 0 - X 0 0) (X 2 0 - X 0 0) (X 1 1 - X 0 1) (X 2 1 - X 0 1)
  exact h.trans (congrArg (· * w q) h2)

theorem C81_tetrahedron {K : Type*} [Field K] [CharZero K] (pts : Fin m → K × K × K) (w : Fin m → K)
    (X : Fin 4 → Fin 3 → K) (q : Fin m) :
    (EleType.TET4.refElem 3 pts w).JxW X q =
      (Matrix.of fun i j : Fin 3 => X j.succ i - X 0 i).det * w q :=
  (C81_affine_cell .TET4 pts w X (Matrix.of fun i j : Fin 3 => X j.succ i - X 0 i) (X 0) (by
    have : ∀ (a : Fin 4) (i : Fin 3), X a i = ∑ j : Fin 3,
        (Matrix.of fun i j : Fin 3 => X j.succ i - X 0 i) i j * nodeCoord K .TET4 a j + X 0 i := by
      intro a i
      fin_cases a <;> fin_cases i <;> simp [nodeCoord, twiceNode, twiceNodes, Fin.sum_univ_three]
    exact this)).1 q
end

/-! ### The hypotheses are met -/

/-- A sheared and stretched tetrahedron of ten nodes is an affine cell with nonzero determinant. -/
example : let B : Matrix (Fin 3) (Fin 3) ℚ := Matrix.of ![![2, 1, 0], ![0, 1, 0], ![0, 0, 3]]
    AffineCell (refNodes ℚ .TET10) (fun a i => ∑ j, B i j * refNodes ℚ .TET10 a j + 5) B (fun _ => 5) ∧ B.det = 6 := by
  intro B
  refine ⟨fun _ _ => rfl, ?_⟩
  rw [Matrix.det_fin_three]; simp [B]; norm_num

/-- The trapezoid has a positive Jacobian at the centre: C78 applies to it. -/
example : ((EleType.QUAD4.refElem 2 (fun _ : Fin 1 => ((1 / 2 : ℚ), 1 / 2, 0)) fun _ => 1).jacobian exTrapezoid 0).det ≠ 0 := by
  rw [C80_trapezoid_violated.1]; norm_num

/-- Edge 2 of a quadrilateral joins nodes 1 and 2. -/
example : edgeNodes .QUAD4 2 = (1, 2) ∧ edgeDir ℝ .QUAD4 2 0 = 0 ∧ edgeDir ℝ .QUAD4 2 1 = 1 := by
  refine ⟨by decide +kernel, ?_, ?_⟩ <;> norm_num [edgeDir, basixFacets, basixVertices]

end Verif.Props
