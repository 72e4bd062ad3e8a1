import Verif.Props.RigidBricks

/-!
# Rigid cells of every affine shape (C160)

A cell is rigid if the reference cell is, whatever the affine map between them: parallelograms and parallelepipeds are as rigid as
rectangles and bricks. feax forms the gradients with the inverse of the Jacobian (`/repo/feax/fe.py:119-128`).
-/

namespace Verif.Props

open Verif.Model
open Spec.Amg (Skew)
open Spec.WellPosed
open scoped Matrix

namespace Spec.WellPosed
variable {K : Type*} [Field K]

/-- The nodes of the reference cell, by number. -/
def refX (e : EleType) (a k : ℕ) : K := if h : a < e.reOrder.length ∧ k < e.dim then refNodes K e ⟨a, h.1⟩ ⟨k, h.2⟩ else 0

end Spec.WellPosed

section field
variable {K : Type*} [Field K]

/-- The gradient of a displacement of a cell feax builds: the reference gradient times the inverse Jacobian. -/
theorem cell_gradient [CharZero K] (e : EleType) (X : ℕ → ℕ → K) (nodes : List ℕ) (hn : nodes.length = e.reOrder.length)
    (B : Matrix (Fin e.dim) (Fin e.dim) K) (c : Fin e.dim → K) (hX : AffineCell (refNodes K e) (coordsOf X nodes) B c)
    {m : ℕ} (pts : Fin m → K × K × K) (w : Fin m → K) (fs : List Verif.Spec.Field) (u : List K) (q : Fin m) (i k : Fin e.dim) :
    Verif.Spec.fieldGrad fs u 0 nodes ((e.refElem e.dim pts w).fePoint (coordsOf X nodes) q).grads i k =
      ∑ j, (∑ a : Fin e.reOrder.length, u.getD (Verif.Spec.dofNumber fs 0 (nodes.getD a 0) i) 0 * (e.refElem e.dim pts w).grads q a j) *
        B⁻¹ j k := by
  have hJ := jacobian_affine _ (refElem_consistent e _ pts w) _ _ (refElem_linear e pts w) _ _ hX q
  unfold Verif.Spec.fieldGrad
  rw [hn, Finset.sum_range]
  have hget : ∀ a : Fin e.reOrder.length, (((e.refElem e.dim pts w).fePoint (coordsOf X nodes) q).grads.getD a []).getD k 0 =
      (e.refElem e.dim pts w).physGrads (coordsOf X nodes) q a k := by
    intro a
    simp [RefElem.fePoint, List.getD_eq_getElem?_getD]
  simp only [hget, RefElem.physGrads, hJ, Finset.sum_mul, Finset.mul_sum]
  rw [Finset.sum_comm]
  exact Finset.sum_congr rfl fun j _ => Finset.sum_congr rfl fun a _ => by ring

/-- C160: rigidity does not depend on the affine shape of a cell. If the reference cell with these points is rigid, so is every affine
image of it with an invertible matrix. -/
theorem C160_affine_cell [CharZero K] (e : EleType) (X : ℕ → ℕ → K) (nodes : List ℕ) (hn : nodes.length = e.reOrder.length)
    (B : Matrix (Fin e.dim) (Fin e.dim) K) (hB : B.det ≠ 0) (c : Fin e.dim → K)
    (hX : AffineCell (refNodes K e) (coordsOf X nodes) B c) {m : ℕ} (pts : Fin m → K × K × K) (w : Fin m → K) (iv : Fin m → List K)
    (href : RigidCell [⟨e.dim, e.reOrder.length⟩] e.dim (refX e) (List.range e.reOrder.length)
      ((e.refElem e.dim pts w).cellPoints (coordsOf (refX e) (List.range e.reOrder.length)) iv)) (fs : List Verif.Spec.Field) :
    RigidCell fs e.dim X nodes ((e.refElem e.dim pts w).cellPoints (coordsOf X nodes) iv) := by
  intro u hu
  have hunit : IsUnit B.det := isUnit_iff_ne_zero.mpr hB
  let v : Fin (e.reOrder.length) → Fin (e.dim) → K := fun a i => u.getD (Verif.Spec.dofNumber fs 0 (nodes.getD a 0) i) 0
  let v' : Fin (e.reOrder.length) → Fin (e.dim) → K := fun a i => ∑ l, B l i * v a l
  let u' : List K := (List.range (e.reOrder.length * e.dim)).map fun t => if h : t / e.dim < e.reOrder.length ∧ t % e.dim < e.dim then v' ⟨t / e.dim, h.1⟩ ⟨t % e.dim, h.2⟩ else 0
  have hu' : ∀ (a : Fin (e.reOrder.length)) (i : Fin (e.dim)), u'.getD (Verif.Spec.dofNumber [⟨e.dim, e.reOrder.length⟩] 0 ((List.range e.reOrder.length).getD a 0) i) 0 = v' a i := by
    intro a i
    have hlt : a.val * e.dim + i.val < e.reOrder.length * e.dim := by
      calc a.val * e.dim + i.val < a.val * e.dim + e.dim := by omega
        _ = (a.val + 1) * e.dim := by ring
        _ ≤ e.reOrder.length * e.dim := Nat.mul_le_mul_right _ a.isLt
    have h1 : (a.val * e.dim + i.val) / e.dim = a.val := by
      rw [mul_comm, Nat.mul_add_div (by omega), Nat.div_eq_of_lt i.isLt, add_zero]
    have h2 : (a.val * e.dim + i.val) % e.dim = i.val := by
      rw [mul_comm, Nat.mul_add_mod, Nat.mod_eq_of_lt i.isLt]
    have hdof : Verif.Spec.dofNumber [⟨e.dim, e.reOrder.length⟩] 0 ((List.range e.reOrder.length).getD a 0) i = a.val * e.dim + i.val := by
      simp [Verif.Spec.dofNumber]
    rw [hdof, List.getD_eq_getElem _ _ (by simpa [u'] using hlt)]
    simp only [u', List.getElem_map, List.getElem_range]
    rw [dif_pos ⟨by omega, by omega⟩]
    congr 1 <;> exact Fin.ext (by assumption)
  have hXr : AffineCell (refNodes K e) (coordsOf (refX e) (List.range e.reOrder.length)) 1 0 := by
    intro a i
    have : coordsOf (refX e) (List.range e.reOrder.length) a i = refNodes K e a i := by
      have ha : (List.range e.reOrder.length).getD a 0 = a := by simp
      unfold coordsOf
      rw [ha, refX, dif_pos ⟨a.isLt, i.isLt⟩]
    rw [this]
    simp [Matrix.one_apply]
  let R : Fin m → Matrix (Fin (e.dim)) (Fin (e.dim)) K := fun q => Matrix.of fun i j => ∑ a, v a i * (e.refElem e.dim pts w).grads q a j
  have hF : ∀ q, R q * B⁻¹ + (R q * B⁻¹)ᵀ = 0 := by
    intro q
    ext i k
    have h1 := cell_gradient e X nodes hn B c hX pts w fs u q i k
    have h2 := cell_gradient e X nodes hn B c hX pts w fs u q k i
    have := hu _ ((List.mem_ofFn' _ _).mpr ⟨q, rfl⟩) i i.isLt k k.isLt
    simp only [Verif.Spec.fe, List.getD_cons_zero] at this
    rw [h1, h2] at this
    rw [Matrix.add_apply, Matrix.transpose_apply, Matrix.mul_apply, Matrix.mul_apply, Matrix.zero_apply]
    exact this
  have hR : ∀ q, Bᵀ * R q + (Bᵀ * R q)ᵀ = 0 := by
    intro q
    have e1 : Bᵀ * R q = Bᵀ * (R q * B⁻¹) * B := by
      rw [Matrix.mul_assoc, Matrix.mul_assoc, Matrix.nonsing_inv_mul _ hunit, Matrix.mul_one]
    have e2 : Bᵀ * R q + (Bᵀ * R q)ᵀ = Bᵀ * (R q * B⁻¹ + (R q * B⁻¹)ᵀ) * B := by
      rw [e1, Matrix.mul_add, Matrix.add_mul]
      congr 1
      rw [Matrix.transpose_mul, Matrix.transpose_mul, Matrix.transpose_transpose, Matrix.mul_assoc]
    rw [e2, hF, Matrix.mul_zero, Matrix.zero_mul]
  obtain ⟨A', b', hA', hv'⟩ := href u' (by
    intro q hq i hi k hk
    obtain ⟨q, rfl⟩ := (List.mem_ofFn' _ _).mp hq
    have h1 := cell_gradient e (refX e) (List.range e.reOrder.length) (by simp) 1 0 hXr pts w [⟨e.dim, e.reOrder.length⟩] u' q ⟨i, hi⟩ ⟨k, hk⟩
    have h2 := cell_gradient e (refX e) (List.range e.reOrder.length) (by simp) 1 0 hXr pts w [⟨e.dim, e.reOrder.length⟩] u' q ⟨k, hk⟩ ⟨i, hi⟩
    simp only [Verif.Spec.fe, List.getD_cons_zero]
    refine (congrArg₂ (· + ·) h1 h2).trans ?_
    have hsum : ∀ (i k : Fin (e.dim)), (∑ j, (∑ a : Fin (e.reOrder.length), u'.getD (Verif.Spec.dofNumber [⟨e.dim, e.reOrder.length⟩] 0 ((List.range e.reOrder.length).getD a 0) i) 0 *
        (e.refElem e.dim pts w).grads q a j) * (1 : Matrix (Fin (e.dim)) (Fin (e.dim)) K)⁻¹ j k) = (Bᵀ * R q) i k := by
      intro i k
      simp only [hu', inv_one, Matrix.one_apply, mul_ite, mul_one, mul_zero, Finset.sum_ite_eq', Finset.mem_univ, if_true, Matrix.mul_apply,
        Matrix.transpose_apply, R, Matrix.of_apply, v', Finset.sum_mul, Finset.mul_sum]
      rw [Finset.sum_comm]
      exact Finset.sum_congr rfl fun l _ => Finset.sum_congr rfl fun a _ => by ring
    have := congrFun (congrFun (hR q) ⟨i, hi⟩) ⟨k, hk⟩
    rw [Matrix.add_apply, Matrix.transpose_apply, Matrix.zero_apply, ← hsum, ← hsum] at this
    exact this)
  -- back to the cell
  let M' : Matrix (Fin (e.dim)) (Fin (e.dim)) K := Matrix.of fun i j => A' i j
  let M : Matrix (Fin (e.dim)) (Fin (e.dim)) K := (B⁻¹)ᵀ * M' * B⁻¹
  let b : Fin (e.dim) → K := (B⁻¹)ᵀ.mulVec (fun i => b' i) - M.mulVec c
  have hM' : M'ᵀ = -M' := by
    ext i j
    simp only [M', Matrix.transpose_apply, Matrix.of_apply, Matrix.neg_apply]
    exact hA' j j.isLt i i.isLt
  have hM : Mᵀ = -M := by
    simp only [M, Matrix.transpose_mul, Matrix.transpose_transpose, hM', Matrix.neg_mul, Matrix.mul_neg, Matrix.mul_assoc]
  have hx : ∀ a : Fin (e.reOrder.length), (fun i => coordsOf X nodes a i) = B.mulVec (refNodes K e a) + c := by
    intro a
    funext i
    rw [hX a i]
    rfl
  have hva : ∀ a : Fin (e.reOrder.length), v a = M.mulVec (fun i => coordsOf X nodes a i) + b := by
    intro a
    have h1 : Bᵀ.mulVec (v a) = M'.mulVec (refNodes K e a) + (fun i : Fin e.dim => b' i) := by
      funext i
      have := hv' a (by simp) i i.isLt
      have hh := hu' a i
      have hr : (List.range e.reOrder.length).getD a 0 = a := by simp
      rw [hr] at hh
      rw [hh] at this
      have e1 : Bᵀ.mulVec (v a) i = v' a i := by simp [Matrix.mulVec, dotProduct, v']
      rw [e1, this, Verif.Spec.affine, Finset.sum_range]
      simp only [Pi.add_apply, Matrix.mulVec, dotProduct, M', Matrix.of_apply]
      congr 1
      refine Finset.sum_congr rfl fun l _ => ?_
      rw [refX, dif_pos ⟨a.isLt, l.isLt⟩]
    have h2 : (B⁻¹)ᵀ.mulVec (Bᵀ.mulVec (v a)) = v a := by
      rw [Matrix.mulVec_mulVec, ← Matrix.transpose_mul, Matrix.mul_nonsing_inv _ hunit, Matrix.transpose_one, Matrix.one_mulVec]
    rw [← h2, h1, hx, Matrix.mulVec_add, Matrix.mulVec_add, Matrix.mulVec_mulVec, Matrix.mulVec_mulVec]
    have h3 : M * B = (B⁻¹)ᵀ * M' := by
      simp only [M, Matrix.mul_assoc, Matrix.nonsing_inv_mul _ hunit, Matrix.mul_one]
    rw [h3]
    simp only [b]
    abel
  refine ⟨fun i j => if h : i < e.dim ∧ j < e.dim then M ⟨i, h.1⟩ ⟨j, h.2⟩ else 0, fun i => if h : i < e.dim then b ⟨i, h⟩ else 0, ?_, ?_⟩
  · intro i hi j hj
    simp only [hi, hj, and_self, dif_pos]
    have := congrFun (congrFun hM ⟨j, hj⟩) ⟨i, hi⟩
    simpa using this
  · intro nd hnd i hi
    obtain ⟨a, ha, rfl⟩ := List.mem_iff_getElem.mp hnd
    have hg : nodes.getD a 0 = nodes[a] := List.getD_eq_getElem _ _ ha
    have := congrFun (hva ⟨a, by omega⟩) ⟨i, hi⟩
    simp only [v, hg] at this
    rw [this, Verif.Spec.affine, Finset.sum_range]
    simp only [Pi.add_apply, Matrix.mulVec, dotProduct, hi, dif_pos, true_and, Fin.is_lt, coordsOf, hg]

/-- C160: every parallelogram with a rule that has two points per direction is rigid. -/
theorem C160_parallelogram [CharZero K] (fs : List Verif.Spec.Field) (X : ℕ → ℕ → K) (nodes : List ℕ) (hn : nodes.length = 4)
    (B : Matrix (Fin 2) (Fin 2) K) (hB : B.det ≠ 0) (c : Fin 2 → K)
    (hX : AffineCell (refNodes K .QUAD4) (coordsOf X nodes) B c) {m : ℕ} (pts : Fin m → K × K × K) (w : Fin m → K) (iv : Fin m → List K)
    (g g' : K) (hg : g ≠ g') (hp : ∀ x ∈ [g, g'], ∀ y ∈ [g, g'], ∃ q, (pts q).1 = x ∧ (pts q).2.1 = y) :
    RigidCell fs 2 X nodes ((EleType.QUAD4.refElem 2 pts w).cellPoints (coordsOf X nodes) iv) := by
  refine C160_affine_cell .QUAD4 X nodes hn B hB c hX pts w iv (C160_rectangle_cell _ _ _ (fun _ => 0) (fun _ => 1) ⟨rfl, ?_⟩
    (fun _ _ => one_ne_zero) pts w iv g g' hg hp) fs
  intro a ha k hk
  have ha4 : a < 4 := ha
  have : (List.range (EleType.QUAD4).reOrder.length).getD a 0 = a := by interval_cases a <;> rfl
  rw [this, refX, dif_pos ⟨ha4, hk⟩]
  interval_cases a <;> interval_cases k <;> simp [refCorner, refNodes, nodeCoord, twiceNode, twiceNodes]

/-- C160: so is every parallelepiped. -/
theorem C160_parallelepiped [CharZero K] (fs : List Verif.Spec.Field) (X : ℕ → ℕ → K) (nodes : List ℕ) (hn : nodes.length = 8)
    (B : Matrix (Fin 3) (Fin 3) K) (hB : B.det ≠ 0) (c : Fin 3 → K)
    (hX : AffineCell (refNodes K .HEX8) (coordsOf X nodes) B c) {m : ℕ} (pts : Fin m → K × K × K) (w : Fin m → K) (iv : Fin m → List K)
    (g g' : K) (hg : g ≠ g') (hp : ∀ x ∈ [g, g'], ∀ y ∈ [g, g'], ∀ z ∈ [g, g'], ∃ q, pts q = (x, y, z)) :
    RigidCell fs 3 X nodes ((EleType.HEX8.refElem 3 pts w).cellPoints (coordsOf X nodes) iv) := by
  refine C160_affine_cell .HEX8 X nodes hn B hB c hX pts w iv (C160_brick_cell _ _ _ (fun _ => 0) (fun _ => 1) ⟨rfl, ?_⟩
    (fun _ _ => one_ne_zero) pts w iv g g' hg hp) fs
  intro a ha k hk
  have ha8 : a < 8 := ha
  have : (List.range (EleType.HEX8).reOrder.length).getD a 0 = a := by interval_cases a <;> rfl
  rw [this, refX, dif_pos ⟨ha8, hk⟩]
  interval_cases a <;> interval_cases k <;> simp [refCorner, refNodes, nodeCoord, twiceNode, twiceNodes]

end field

section examples

/-- A sheared cell: the corners `(0, 0)`, `(2, 0)`, `(3, 1)`, `(1, 1)`. -/
def exShearedX (n k : ℕ) : ℚ := if k = 0 then [0, 2, 3, 1].getD n 0 else [0, 0, 1, 1].getD n 0

example (iv : Fin 4 → List ℚ) : RigidCell [⟨2, 4⟩] 2 exShearedX [0, 1, 2, 3]
    ((EleType.QUAD4.refElem 2 (fun q : Fin 4 => ((if q.val % 2 = 0 then 1 / 4 else 3 / 4 : ℚ), (if q.val / 2 = 0 then 1 / 4 else 3 / 4 : ℚ), (0 : ℚ)))
      fun _ => 1 / 4).cellPoints (coordsOf exShearedX [0, 1, 2, 3]) iv) :=
  C160_parallelogram _ _ _ rfl !![2, 1; 0, 1] (by norm_num [Matrix.det_fin_two]) 0
    (by
      show ∀ a i, _ = _
      decide +kernel)
    _ _ _ (1 / 4) (3 / 4) (by norm_num) (by decide +kernel)

end examples

end Verif.Props
