import Verif.Model.Stiffness
import Mathlib.Tactic.Linarith
import Mathlib.Tactic.FieldSimp
import Mathlib.Tactic.LinearCombination
import Mathlib.Tactic.NormNum

/-!
# C91: stiffness tensors have the engineering constants they are built from, and rotate as tensors
-/

namespace Verif.Props

open Verif.Model

/-! ### Rotation of tensors of any dimension -/

section
variable {d : ℕ}

/-- The columns (and rows) of `R` are orthonormal. -/
def Orthogonal (R : Arr2 ℝ d) : Prop := ∀ i j, ∑ p, R i p * R j p = eye ℝ d i j

theorem eye_symm (i j : Fin d) : eye ℝ d i j = eye ℝ d j i := by simp [eye, eq_comm]

theorem rotate4_outer (x y : Arr2 ℝ d) (R : Arr2 ℝ d) (i j k l : Fin d) :
    rotate4 (fun p q r s => x p q * y r s) R i j k l = rotate2 x R i j * rotate2 y R k l := by
  simp only [rotate4, rotate2, Finset.sum_mul]
  simp only [Finset.mul_sum]
  exact Finset.sum_congr rfl fun p _ => Finset.sum_congr rfl fun q _ => Finset.sum_congr rfl fun r _ =>
    Finset.sum_congr rfl fun s _ => by ring

theorem rotate4_swap23 (C : Arr4 ℝ d) (R : Arr2 ℝ d) (i j k l : Fin d) :
    rotate4 (fun p q r s => C p r q s) R i j k l = rotate4 C R i k j l := by
  simp only [rotate4]
  refine Finset.sum_congr rfl fun p _ => ?_
  rw [Finset.sum_comm]
  exact Finset.sum_congr rfl fun r _ => Finset.sum_congr rfl fun q _ => Finset.sum_congr rfl fun s _ => by ring

theorem rotate4_swap34 (C : Arr4 ℝ d) (R : Arr2 ℝ d) (i j k l : Fin d) :
    rotate4 (fun p q r s => C p q s r) R i j k l = rotate4 C R i j l k := by
  simp only [rotate4]
  refine Finset.sum_congr rfl fun p _ => Finset.sum_congr rfl fun q _ => ?_
  rw [Finset.sum_comm]
  exact Finset.sum_congr rfl fun r _ => Finset.sum_congr rfl fun s _ => by ring

theorem rotate4_swap12 (C : Arr4 ℝ d) (R : Arr2 ℝ d) (i j k l : Fin d) :
    rotate4 (fun p q r s => C q p r s) R i j k l = rotate4 C R j i k l := by
  simp only [rotate4]
  rw [Finset.sum_comm]
  exact Finset.sum_congr rfl fun p _ => Finset.sum_congr rfl fun q _ => Finset.sum_congr rfl fun r _ =>
    Finset.sum_congr rfl fun s _ => by ring

theorem rotate4_add (C E : Arr4 ℝ d) (R : Arr2 ℝ d) (i j k l : Fin d) :
    rotate4 (fun p q r s => C p q r s + E p q r s) R i j k l = rotate4 C R i j k l + rotate4 E R i j k l := by
  simp only [rotate4, mul_add, Finset.sum_add_distrib]

theorem rotate4_smul (c : ℝ) (C : Arr4 ℝ d) (R : Arr2 ℝ d) (i j k l : Fin d) :
    rotate4 (fun p q r s => c * C p q r s) R i j k l = c * rotate4 C R i j k l := by
  simp only [rotate4, Finset.mul_sum]
  exact Finset.sum_congr rfl fun p _ => Finset.sum_congr rfl fun q _ => Finset.sum_congr rfl fun r _ =>
    Finset.sum_congr rfl fun s _ => by ring

theorem rotate2_eye {R : Arr2 ℝ d} (h : Orthogonal R) : rotate2 (eye ℝ d) R = eye ℝ d := by
  funext i j
  rw [← h i j]
  simp only [rotate2, eye, mul_ite, mul_one, mul_zero, Finset.sum_ite_eq, Finset.mem_univ, if_true]

theorem orthogonal_cols {R : Arr2 ℝ d} (h : Orthogonal R) (i j : Fin d) : ∑ p, R p i * R p j = eye ℝ d i j := by
  have h1 : Matrix.of R * (Matrix.of R).transpose = 1 := by
    ext a b
    simp only [Matrix.mul_apply, Matrix.transpose_apply, Matrix.of_apply, Matrix.one_apply]
    exact h a b
  have h2 : (Matrix.of R).transpose * Matrix.of R = 1 := mul_eq_one_comm.mp h1
  have := congrFun (congrFun h2 i) j
  simpa only [Matrix.mul_apply, Matrix.transpose_apply, Matrix.of_apply, Matrix.one_apply, eye] using this

theorem sum_out4 (F : Fin d → Fin d → Fin d → Fin d → Fin d → ℝ) :
    ∑ a, ∑ b, ∑ c, ∑ e, ∑ p, F a b c e p = ∑ p, ∑ a, ∑ b, ∑ c, ∑ e, F a b c e p := by
  rw [Finset.sum_comm (s := Finset.univ) (t := Finset.univ) (f := fun p a => ∑ b, ∑ c, ∑ e, F a b c e p)]
  refine Finset.sum_congr rfl fun a _ => ?_
  rw [Finset.sum_comm (s := Finset.univ) (t := Finset.univ) (f := fun p b => ∑ c, ∑ e, F a b c e p)]
  refine Finset.sum_congr rfl fun b _ => ?_
  rw [Finset.sum_comm (s := Finset.univ) (t := Finset.univ) (f := fun p c => ∑ e, F a b c e p)]
  refine Finset.sum_congr rfl fun c _ => ?_
  rw [Finset.sum_comm]

theorem prod_sums4 (f g h m : Fin d → ℝ) (x : ℝ) :
    ∑ a, ∑ b, ∑ c, ∑ e, f a * g b * h c * m e * x = (∑ a, f a) * (∑ b, g b) * (∑ c, h c) * (∑ e, m e) * x := by
  simp only [← Finset.mul_sum, ← Finset.sum_mul]

end

/-! ### Rotation -/

/-- **C91.** Rotating the stiffness and the strain together rotates the stress: the rotated material in the rotated frame answers as
the original one. -/
theorem C91_rotation_covariant {d : ℕ} (C : Arr4 ℝ d) (e : Arr2 ℝ d) {R : Arr2 ℝ d} (h : Orthogonal R) :
    ddot (rotate4 C R) (rotate2 e R) = rotate2 (ddot C e) R := by
  funext i j
  simp only [ddot, rotate4, rotate2]
  have hcol := orthogonal_cols h
  calc ∑ k, ∑ l, (∑ p, ∑ q, ∑ r, ∑ s, R i p * R j q * R k r * R l s * C p q r s) * (∑ a, ∑ b, R k a * R l b * e a b)
      = ∑ p, ∑ q, ∑ r, ∑ s, ∑ a, ∑ b, R i p * R j q * C p q r s * e a b * ((∑ k, R k r * R k a) * (∑ l, R l s * R l b)) := by
        simp only [Finset.sum_mul]
        simp only [Finset.mul_sum]
        rw [Finset.sum_congr rfl fun k _ => Finset.sum_comm, Finset.sum_comm]
        refine Finset.sum_congr rfl fun p _ => ?_
        rw [Finset.sum_congr rfl fun k _ => Finset.sum_comm, Finset.sum_comm]
        refine Finset.sum_congr rfl fun q _ => ?_
        rw [Finset.sum_congr rfl fun k _ => Finset.sum_comm, Finset.sum_comm]
        refine Finset.sum_congr rfl fun r _ => ?_
        rw [Finset.sum_congr rfl fun k _ => Finset.sum_comm, Finset.sum_comm]
        refine Finset.sum_congr rfl fun s _ => ?_
        rw [Finset.sum_congr rfl fun k _ => Finset.sum_comm, Finset.sum_comm]
        refine Finset.sum_congr rfl fun a _ => ?_
        rw [Finset.sum_congr rfl fun k _ => Finset.sum_comm, Finset.sum_comm]
        refine Finset.sum_congr rfl fun b _ => ?_
        exact Finset.sum_congr rfl fun k _ => Finset.sum_congr rfl fun l _ => by ring
    _ = ∑ p, ∑ q, R i p * R j q * ∑ k, ∑ l, C p q k l * e k l := by
        refine Finset.sum_congr rfl fun p _ => Finset.sum_congr rfl fun q _ => ?_
        rw [Finset.mul_sum]
        refine Finset.sum_congr rfl fun r _ => ?_
        rw [Finset.mul_sum]
        refine Finset.sum_congr rfl fun s _ => ?_
        simp only [hcol, eye, mul_ite, mul_one, mul_zero, Finset.sum_ite_eq, Finset.mem_univ, if_true]
        ring

/-- **C91.** A rotation by zero changes nothing and rotations compose: rotating by `R` and then by `S` is rotating by `S R`. -/
theorem C91_rotation_composes {d : ℕ} (C : Arr4 ℝ d) (a : Arr2 ℝ d) (R S : Arr2 ℝ d) :
    rotate4 C (eye ℝ d) = C ∧ rotate2 a (eye ℝ d) = a ∧
    rotate2 (rotate2 a R) S = rotate2 a (fun i j => ∑ k, S i k * R k j) ∧
    rotate4 (rotate4 C R) S = rotate4 C (fun i j => ∑ k, S i k * R k j) := by
  refine ⟨?_, ?_, ?_, ?_⟩
  · funext i j k l
    simp only [rotate4, eye, ite_mul, one_mul, zero_mul, mul_ite, mul_one, mul_zero, Finset.sum_ite_eq, Finset.mem_univ,
      if_true]
  · funext i j
    simp only [rotate2, eye, ite_mul, one_mul, zero_mul, mul_ite, mul_one, mul_zero, Finset.sum_ite_eq, Finset.mem_univ,
      if_true]
  · funext i j
    simp only [rotate2, Finset.mul_sum, Finset.sum_mul]
    rw [Finset.sum_congr rfl fun p _ => Finset.sum_comm, Finset.sum_comm]
    refine Finset.sum_congr rfl fun p _ => ?_
    rw [Finset.sum_congr rfl fun a _ => Finset.sum_comm, Finset.sum_comm]
    refine Finset.sum_congr rfl fun q _ => ?_
    rw [Finset.sum_comm]
    exact Finset.sum_congr rfl fun a _ => Finset.sum_congr rfl fun b _ => by ring
  · funext i j k l
    simp only [rotate4]
    have h1 : ∀ a b c e, S i a * S j b * S k c * S l e * (∑ p, ∑ q, ∑ r, ∑ s, R a p * R b q * R c r * R e s * C p q r s)
        = ∑ p, ∑ q, ∑ r, ∑ s, S i a * S j b * S k c * S l e * (R a p * R b q * R c r * R e s * C p q r s) := by
      intro a b c e
      simp only [Finset.mul_sum]
    simp only [h1]
    rw [sum_out4]
    refine Finset.sum_congr rfl fun p _ => ?_
    rw [sum_out4]
    refine Finset.sum_congr rfl fun q _ => ?_
    rw [sum_out4]
    refine Finset.sum_congr rfl fun r _ => ?_
    rw [sum_out4]
    refine Finset.sum_congr rfl fun s _ => ?_
    rw [← prod_sums4]
    exact Finset.sum_congr rfl fun a _ => Finset.sum_congr rfl fun b _ => Finset.sum_congr rfl fun c _ =>
      Finset.sum_congr rfl fun e _ => by ring

theorem planeRotation_orthogonal {c s : ℝ} (h : c ^ 2 + s ^ 2 = 1) : Orthogonal (planeRotation c s) := by
  intro i j
  rw [Fin.sum_univ_two]
  fin_cases i <;> fin_cases j <;> simp [planeRotation, eye] <;> linarith

/-- **C91.** In-plane rotations are rotations: angle zero is the identity, angles add up, and the first axis turns to
`(cos θ, sin θ)`. -/
theorem C91_in_plane_angle (C : Arr4 ℝ 2) (a : Arr2 ℝ 2) (s t : ℝ) :
    rotateInPlane C 0 = C ∧ rotateInPlane (rotateInPlane C s) t = rotateInPlane C (s + t) ∧
    rotateInPlane2 a 0 = a ∧ rotateInPlane2 (rotateInPlane2 a s) t = rotateInPlane2 a (s + t) ∧
    rotateInPlane2 (![![1, 0], ![0, 0]]) t = fun i j => (![Real.cos t, Real.sin t] : Fin 2 → ℝ) i * ![Real.cos t, Real.sin t] j := by
  have hz : planeRotation (Real.cos 0) (Real.sin 0) = eye ℝ 2 := by
    funext i j; fin_cases i <;> fin_cases j <;> simp [planeRotation, eye]
  have hadd : (fun i j => ∑ k, planeRotation (Real.cos t) (Real.sin t) i k * planeRotation (Real.cos s) (Real.sin s) k j)
      = planeRotation (Real.cos (s + t)) (Real.sin (s + t)) := by
    funext i j
    rw [Fin.sum_univ_two, Real.cos_add, Real.sin_add]
    fin_cases i <;> fin_cases j <;> simp [planeRotation] <;> ring
  obtain ⟨h1, h2, -, -⟩ := C91_rotation_composes C a (eye ℝ 2) (eye ℝ 2)
  obtain ⟨-, -, h3, h4⟩ := C91_rotation_composes C a (planeRotation (Real.cos s) (Real.sin s))
    (planeRotation (Real.cos t) (Real.sin t))
  refine ⟨?_, ?_, ?_, ?_, ?_⟩
  · unfold rotateInPlane; rw [hz]; exact h1
  · unfold rotateInPlane; rw [h4, hadd]
  · unfold rotateInPlane2; rw [hz]; exact h2
  · unfold rotateInPlane2; rw [h3, hadd]
  · funext i j
    simp only [rotateInPlane2, rotate2, Fin.sum_univ_two, planeRotation]
    fin_cases i <;> fin_cases j <;> simp

private theorem axis_entries {a : Fin 3 → ℝ} (c s : ℝ) :
    (fun i j => eye ℝ 3 i j + s * (![![0, -a 2, a 1], ![a 2, 0, -a 0], ![-a 1, a 0, 0]] : Arr2 ℝ 3) i j
      + (1 - c) * ∑ l, (![![0, -a 2, a 1], ![a 2, 0, -a 0], ![-a 1, a 0, 0]] : Arr2 ℝ 3) i l
        * (![![0, -a 2, a 1], ![a 2, 0, -a 0], ![-a 1, a 0, 0]] : Arr2 ℝ 3) l j)
    = (![![1 - (1 - c) * (a 1 ^ 2 + a 2 ^ 2), -s * a 2 + (1 - c) * (a 0 * a 1), s * a 1 + (1 - c) * (a 0 * a 2)],
        ![s * a 2 + (1 - c) * (a 0 * a 1), 1 - (1 - c) * (a 0 ^ 2 + a 2 ^ 2), -s * a 0 + (1 - c) * (a 1 * a 2)],
        ![-s * a 1 + (1 - c) * (a 0 * a 2), s * a 0 + (1 - c) * (a 1 * a 2), 1 - (1 - c) * (a 0 ^ 2 + a 1 ^ 2)]] : Arr2 ℝ 3) := by
  funext i j
  rw [Fin.sum_univ_three]
  fin_cases i <;> fin_cases j <;> simp only [eye] <;> simp <;> grind

/-- **C91.** The rotation matrix about any nonzero axis is orthogonal with determinant one, keeps the axis, depends only on the
direction of the axis, is the identity at angle zero, adds up angles, and about the third axis turns the first towards the
second. -/
theorem C91_axis_rotation (axis : Fin 3 → ℝ) (h : axis ≠ 0) (s t : ℝ) :
    Orthogonal (rotationMatrixAxis t axis) ∧ Matrix.det (Matrix.of (rotationMatrixAxis t axis)) = 1 ∧
    (∀ i, ∑ j, rotationMatrixAxis t axis i j * axis j = axis i) ∧
    (∀ c : ℝ, 0 < c → rotationMatrixAxis t (fun i => c * axis i) = rotationMatrixAxis t axis) ∧
    rotationMatrixAxis 0 axis = eye ℝ 3 ∧
    (∀ i j, ∑ k, rotationMatrixAxis t axis i k * rotationMatrixAxis s axis k j = rotationMatrixAxis (s + t) axis i j) ∧
    rotationMatrixAxis t ![0, 0, 1] = ![![Real.cos t, -Real.sin t, 0], ![Real.sin t, Real.cos t, 0], ![0, 0, 1]] := by
  have hpos : 0 < ∑ i, axis i ^ 2 := by
    refine lt_of_le_of_ne (Finset.sum_nonneg fun i _ => sq_nonneg _) fun h0 => h ?_
    funext i
    have := (Finset.sum_eq_zero_iff_of_nonneg fun i _ => sq_nonneg (axis i)).mp h0.symm i (Finset.mem_univ i)
    exact pow_eq_zero_iff two_ne_zero |>.mp this
  obtain ⟨n, hn⟩ : ∃ n, n = Real.sqrt (∑ i, axis i ^ 2) := ⟨_, rfl⟩
  have hn0 : 0 < n := by rw [hn]; exact Real.sqrt_pos.mpr hpos
  have hn2 : n ^ 2 = ∑ i, axis i ^ 2 := by rw [hn]; exact Real.sq_sqrt hpos.le
  obtain ⟨a, ha⟩ : ∃ a : Fin 3 → ℝ, a = fun i => axis i / n := ⟨_, rfl⟩
  have hu : a 0 ^ 2 + a 1 ^ 2 + a 2 ^ 2 = 1 := by
    rw [ha]
    simp only [div_pow]
    rw [← add_div, ← add_div, ← Fin.sum_univ_three (fun i => axis i ^ 2), ← hn2, div_self (by positivity)]
  have hax : ∀ i, axis i = n * a i := by intro i; rw [ha]; field_simp
  have hrot : ∀ t, rotationMatrixAxis t axis =
      (![![1 - (1 - Real.cos t) * (a 1 ^ 2 + a 2 ^ 2), -Real.sin t * a 2 + (1 - Real.cos t) * (a 0 * a 1), Real.sin t * a 1 + (1 - Real.cos t) * (a 0 * a 2)],
        ![Real.sin t * a 2 + (1 - Real.cos t) * (a 0 * a 1), 1 - (1 - Real.cos t) * (a 0 ^ 2 + a 2 ^ 2), -Real.sin t * a 0 + (1 - Real.cos t) * (a 1 * a 2)],
        ![-Real.sin t * a 1 + (1 - Real.cos t) * (a 0 * a 2), Real.sin t * a 0 + (1 - Real.cos t) * (a 1 * a 2), 1 - (1 - Real.cos t) * (a 0 ^ 2 + a 1 ^ 2)]] : Arr2 ℝ 3) := by
    intro t
    rw [← axis_entries, ha, hn]
    rfl
  have hcs := Real.sin_sq_add_cos_sq t
  have h2 : a 2 ^ 2 = 1 - a 0 ^ 2 - a 1 ^ 2 := by linarith
  refine ⟨?_, ?_, ?_, ?_, ?_, ?_, ?_⟩
  · intro i j
    rw [hrot, Fin.sum_univ_three]
    fin_cases i <;> fin_cases j <;> simp [eye] <;> grind
  · rw [Matrix.det_fin_three, hrot]
    simp
    grind
  · intro i
    rw [hrot, Fin.sum_univ_three, hax 0, hax 1, hax 2, hax i]
    fin_cases i <;> simp <;> grind
  · intro c hc
    have h1 : Real.sqrt (∑ i, (c * axis i) ^ 2) = c * Real.sqrt (∑ i, axis i ^ 2) := by
      have : ∑ i, (c * axis i) ^ 2 = c ^ 2 * ∑ i, axis i ^ 2 := by
        rw [Finset.mul_sum]; exact Finset.sum_congr rfl fun i _ => by ring
      rw [this, Real.sqrt_mul (by positivity), Real.sqrt_sq hc.le]
    have h2 : ∀ i, c * axis i / (c * Real.sqrt (∑ i, axis i ^ 2)) = axis i / Real.sqrt (∑ i, axis i ^ 2) := fun i =>
      mul_div_mul_left _ _ hc.ne'
    unfold rotationMatrixAxis
    simp only [h1, h2]
  · funext i j
    rw [hrot]
    fin_cases i <;> fin_cases j <;> simp [eye]
  · have hcs' := Real.sin_sq_add_cos_sq s
    intro i j
    rw [hrot, hrot, hrot, Fin.sum_univ_three, Real.cos_add, Real.sin_add]
    fin_cases i <;> fin_cases j <;> simp <;> grind
  · have h1 : Real.sqrt (∑ i, (![0, 0, 1] : Fin 3 → ℝ) i ^ 2) = 1 := by
      simp [Fin.sum_univ_three]
    funext i j
    simp only [rotationMatrixAxis, h1, Fin.sum_univ_three]
    fin_cases i <;> fin_cases j <;> simp [eye]

example : (![0, 0, 1] : Fin 3 → ℝ) ≠ 0 := by
  intro h
  have := congrFun h 2
  simp at this

/-! ### Engineering constants -/

/-- Minor and major symmetry of a stiffness tensor. -/
def StiffnessSymmetric {d : ℕ} (C : Arr4 ℝ d) : Prop :=
  ∀ i j k l, C i j k l = C j i k l ∧ C i j k l = C i j l k ∧ C i j k l = C k l i j

/-- The strain that Hooke's law for an isotropic material of modulus `E` and Poisson's ratio `nu` assigns to a stress. -/
noncomputable def hookeStrain {d : ℕ} (E nu : ℝ) (sig : Arr2 ℝ d) : Arr2 ℝ d := fun i j =>
  ((1 + nu) * sig i j - nu * (∑ k, sig k k) * eye ℝ d i j) / E

theorem lame_ddot {d : ℕ} (lam mu : ℝ) (e : Arr2 ℝ d) (hs : ∀ i j, e i j = e j i) (i j : Fin d) :
    ddot (lame lam mu) e i j = lam * (∑ k, e k k) * eye ℝ d i j + 2 * mu * e i j := by
  have h1 : ∑ k, ∑ l, lam * (eye ℝ d i j * eye ℝ d k l) * e k l = lam * (∑ k, e k k) * eye ℝ d i j := by
    rw [Finset.mul_sum, Finset.sum_mul]
    refine Finset.sum_congr rfl fun k _ => ?_
    rw [Finset.sum_eq_single k (fun l _ hl => by simp [eye, Ne.symm hl]) (fun h => absurd (Finset.mem_univ k) h)]
    simp [eye]
  have h2 : ∑ k, ∑ l, mu * (eye ℝ d i k * eye ℝ d j l) * e k l = mu * e i j := by
    rw [Finset.sum_eq_single i (fun k _ hk => Finset.sum_eq_zero fun l _ => by simp [eye, Ne.symm hk])
      (fun h => absurd (Finset.mem_univ i) h)]
    rw [Finset.sum_eq_single j (fun l _ hl => by simp [eye, Ne.symm hl]) (fun h => absurd (Finset.mem_univ j) h)]
    simp [eye]
  have h3 : ∑ k, ∑ l, mu * (eye ℝ d i l * eye ℝ d j k) * e k l = mu * e i j := by
    rw [Finset.sum_eq_single j (fun k _ hk => Finset.sum_eq_zero fun l _ => by simp [eye, Ne.symm hk])
      (fun h => absurd (Finset.mem_univ j) h)]
    rw [Finset.sum_eq_single i (fun l _ hl => by simp [eye, Ne.symm hl]) (fun h => absurd (Finset.mem_univ i) h)]
    rw [hs i j]
    simp [eye]
  simp only [ddot, lame, mul_add, add_mul, Finset.sum_add_distrib]
  rw [h1, h2, h3]
  ring

theorem lame_symmetric {d : ℕ} (lam mu : ℝ) : StiffnessSymmetric (lame lam mu : Arr4 ℝ d) := by
  intro i j k l
  simp only [lame]
  refine ⟨?_, ?_, ?_⟩
  · rw [eye_symm j i]; ring
  · rw [eye_symm l k]; ring
  · rw [eye_symm k i, eye_symm l j, eye_symm k j, eye_symm l i]; ring

theorem lame_rotate {d : ℕ} (lam mu : ℝ) {R : Arr2 ℝ d} (h : Orthogonal R) : rotate4 (lame lam mu) R = lame lam mu := by
  funext i j k l
  have he := rotate2_eye h
  have h1 : rotate4 (fun p q r s => eye ℝ d p q * eye ℝ d r s) R = fun i j k l => eye ℝ d i j * eye ℝ d k l := by
    funext i j k l; rw [rotate4_outer, he]
  have h2 : rotate4 (fun p q r s => eye ℝ d p r * eye ℝ d q s) R = fun i j k l => eye ℝ d i k * eye ℝ d j l := by
    funext i j k l
    rw [rotate4_swap23 (fun p q r s => eye ℝ d p q * eye ℝ d r s), h1]
  have h3 : rotate4 (fun p q r s => eye ℝ d p s * eye ℝ d q r) R = fun i j k l => eye ℝ d i l * eye ℝ d j k := by
    funext i j k l
    rw [rotate4_swap34 (fun p q r s => eye ℝ d p r * eye ℝ d q s), h2]
  show rotate4 (fun p q r s => lam * (eye ℝ d p q * eye ℝ d r s)
    + mu * (eye ℝ d p r * eye ℝ d q s + eye ℝ d p s * eye ℝ d q r)) R i j k l = _
  rw [rotate4_add, rotate4_smul, rotate4_smul, rotate4_add, h1, h2, h3]
  rfl

/-- **C91.** The isotropic stiffnesses invert Hooke's law: in the plane under plane stress and in space, the strain that Hooke's law
assigns to a symmetric stress gives back that stress. They are symmetric and the same in every frame. -/
theorem C91_isotropic (E nu : ℝ) (hE : E ≠ 0) (h1 : 1 + nu ≠ 0) :
    (1 - nu ≠ 0 → ∀ sig : Arr2 ℝ 2, (∀ i j, sig i j = sig j i) →
      ddot (isotropicInPlane E nu) (hookeStrain E nu sig) = sig) ∧
    (1 - 2 * nu ≠ 0 → ∀ sig : Arr2 ℝ 3, (∀ i j, sig i j = sig j i) →
      ddot (isotropic3d E nu) (hookeStrain E nu sig) = sig) ∧
    StiffnessSymmetric (isotropicInPlane E nu) ∧ StiffnessSymmetric (isotropic3d E nu) ∧
    (∀ R, Orthogonal R → rotate4 (isotropicInPlane E nu) R = isotropicInPlane E nu) ∧
    (∀ R, Orthogonal R → rotate4 (isotropic3d E nu) R = isotropic3d E nu) := by
  have hsym : ∀ {d : ℕ} (sig : Arr2 ℝ d), (∀ i j, sig i j = sig j i) → ∀ i j, hookeStrain E nu sig i j = hookeStrain E nu sig j i := by
    intro d sig hs i j
    simp only [hookeStrain]
    rw [hs i j, eye_symm i j]
  refine ⟨?_, ?_, lame_symmetric _ _, lame_symmetric _ _, fun R hR => lame_rotate _ _ hR, fun R hR => lame_rotate _ _ hR⟩
  · intro h2 sig hs
    funext i j
    have h3 : 1 - nu * nu ≠ 0 := by
      have : 1 - nu * nu = (1 - nu) * (1 + nu) := by ring
      rw [this]; exact mul_ne_zero h2 h1
    rw [isotropicInPlane, lame_ddot _ _ _ (hsym sig hs)]
    simp only [hookeStrain, Fin.sum_univ_two]
    have e0 : eye ℝ 2 0 0 = 1 := by simp [eye]
    have e1 : eye ℝ 2 1 1 = 1 := by simp [eye]
    rw [e0, e1]
    generalize eye ℝ 2 i j = x
    grind
  · intro h2 sig hs
    funext i j
    rw [isotropic3d, lame_ddot _ _ _ (hsym sig hs)]
    simp only [hookeStrain, Fin.sum_univ_three]
    have e0 : ∀ k, eye ℝ 3 k k = 1 := fun k => by simp [eye]
    rw [e0, e0, e0]
    generalize eye ℝ 3 i j = x
    grind

example : (210 : ℝ) ≠ 0 ∧ (1 : ℝ) + 3 / 10 ≠ 0 ∧ (1 : ℝ) - 3 / 10 ≠ 0 ∧ (1 : ℝ) - 2 * (3 / 10) ≠ 0 := by norm_num

/-- The strain of an orthotropic lamina under a plane stress, from its engineering constants. -/
noncomputable def laminaStrain (E1 E2 G12 nu12 : ℝ) (sig : Arr2 ℝ 2) : Arr2 ℝ 2 :=
  ![![sig 0 0 / E1 - nu12 * sig 1 1 / E1, sig 0 1 / (2 * G12)],
    ![sig 1 0 / (2 * G12), sig 1 1 / E2 - nu12 * sig 0 0 / E1]]

/-- **C91.** The orthotropic in-plane stiffness has the moduli it is built from: the strain that the engineering constants assign to a
symmetric stress gives back that stress. It is symmetric, and with the constants of an isotropic material it is the
isotropic one. -/
theorem C91_orthotropic_in_plane (E1 E2 G12 nu12 : ℝ) (h1 : E1 ≠ 0) (h2 : E2 ≠ 0) (hG : G12 ≠ 0)
    (hm : 1 - nu12 * (nu12 * E2 / E1) ≠ 0) :
    (∀ sig : Arr2 ℝ 2, sig 0 1 = sig 1 0 → ddot (orthotropicInPlane E1 E2 G12 nu12) (laminaStrain E1 E2 G12 nu12 sig) = sig) ∧
    StiffnessSymmetric (orthotropicInPlane E1 E2 G12 nu12) ∧
    (E1 = E2 → G12 = E1 / (2 * (1 + nu12)) → orthotropicInPlane E1 E2 G12 nu12 = isotropicInPlane E1 nu12) := by
  have hm' : E1 - nu12 * nu12 * E2 ≠ 0 := by
    intro h0
    apply hm
    field_simp
    linarith
  refine ⟨?_, ?_, ?_⟩
  · intro sig hs
    have hd : 1 - nu12 * (nu12 * E2 / E1) = (E1 - nu12 * nu12 * E2) / E1 := by field_simp
    funext i j
    simp only [ddot, Fin.sum_univ_two, orthotropicInPlane, set4, laminaStrain, hd]
    fin_cases i <;> fin_cases j <;> simp <;> grind
  · intro i j k l
    simp only [orthotropicInPlane, set4]
    fin_cases i <;> fin_cases j <;> fin_cases k <;> fin_cases l <;> simp
  · rintro rfl rfl
    have hn : 1 + nu12 ≠ 0 := by
      intro h0; rw [h0] at hG; simp at hG
    funext i j k l
    have hd : nu12 * E1 / E1 = nu12 := by field_simp
    have hd2 : 1 - nu12 * nu12 ≠ 0 := by
      rw [hd] at hm; exact hm
    simp only [orthotropicInPlane, set4, isotropicInPlane, lame, eye, hd]
    fin_cases i <;> fin_cases j <;> fin_cases k <;> fin_cases l <;> simp <;> grind

/-- **C91.** Voigt and tensor forms of a stiffness determine each other. -/
theorem C91_voigt_round_trip (C6 : Fin 6 → Fin 6 → ℝ) (C : Arr4 ℝ 3) :
    tensorToVoigt (voigtToTensor C6) = C6 ∧
    ((∀ i j k l, C i j k l = C j i k l ∧ C i j k l = C i j l k) → voigtToTensor (tensorToVoigt C) = C) := by
  constructor
  · funext a b
    fin_cases a <;> fin_cases b <;> rfl
  · intro h
    have hp : ∀ i j : Fin 3, (voigtPairs (voigtSlot i j) = (i, j)) ∨ voigtPairs (voigtSlot i j) = (j, i) := by decide
    funext i j k l
    simp only [voigtToTensor, tensorToVoigt]
    rcases hp i j with e1 | e1 <;> rcases hp k l with e2 | e2 <;> rw [e1, e2]
    · exact (h i j l k).2
    · exact (h j i k l).1
    · rw [(h j i l k).1, (h i j l k).2]

/-- The strain of an orthotropic solid under a stress, from its engineering constants. -/
noncomputable def orthotropicStrain (E1 E2 E3 G12 G13 G23 nu12 nu13 nu23 : ℝ) (sig : Arr2 ℝ 3) : Arr2 ℝ 3 :=
  ![![sig 0 0 / E1 - nu12 * sig 1 1 / E1 - nu13 * sig 2 2 / E1, sig 0 1 / (2 * G12), sig 0 2 / (2 * G13)],
    ![sig 1 0 / (2 * G12), sig 1 1 / E2 - nu12 * sig 0 0 / E1 - nu23 * sig 2 2 / E2, sig 1 2 / (2 * G23)],
    ![sig 2 0 / (2 * G13), sig 2 1 / (2 * G23), sig 2 2 / E3 - nu13 * sig 0 0 / E1 - nu23 * sig 1 1 / E2]]

theorem voigt_ddot (C6 : Fin 6 → Fin 6 → ℝ) (e : Arr2 ℝ 3) (i j : Fin 3) :
    ddot (voigtToTensor C6) e i j
      = (Matrix.of C6).mulVec ![e 0 0, e 1 1, e 2 2, e 1 2 + e 2 1, e 0 2 + e 2 0, e 0 1 + e 1 0] (voigtSlot i j) := by
  simp only [ddot, voigtToTensor, Fin.sum_univ_three, Matrix.mulVec, dotProduct, Fin.sum_univ_six, Matrix.of_apply]
  generalize voigtSlot i j = a
  simp [voigtSlot]
  ring

/-- **C91.** The orthotropic stiffness in space has the nine constants it is built from: the strain that they assign to a symmetric stress
gives back that stress. It is symmetric. -/
theorem C91_orthotropic_3d (E1 E2 E3 G12 G13 G23 nu12 nu13 nu23 : ℝ)
    (hS : IsUnit (Matrix.det (Matrix.of (compliance6 E1 E2 E3 G12 G13 G23 nu12 nu13 nu23)))) :
    (∀ sig : Arr2 ℝ 3, (∀ i j, sig i j = sig j i) →
      ddot (orthotropic3d E1 E2 E3 G12 G13 G23 nu12 nu13 nu23) (orthotropicStrain E1 E2 E3 G12 G13 G23 nu12 nu13 nu23 sig)
        = sig) ∧
    StiffnessSymmetric (orthotropic3d E1 E2 E3 G12 G13 G23 nu12 nu13 nu23) := by
  constructor
  · intro sig hs
    funext i j
    simp only [orthotropic3d]
    rw [voigt_ddot]
    have hv : (![orthotropicStrain E1 E2 E3 G12 G13 G23 nu12 nu13 nu23 sig 0 0,
        orthotropicStrain E1 E2 E3 G12 G13 G23 nu12 nu13 nu23 sig 1 1,
        orthotropicStrain E1 E2 E3 G12 G13 G23 nu12 nu13 nu23 sig 2 2,
        orthotropicStrain E1 E2 E3 G12 G13 G23 nu12 nu13 nu23 sig 1 2
          + orthotropicStrain E1 E2 E3 G12 G13 G23 nu12 nu13 nu23 sig 2 1,
        orthotropicStrain E1 E2 E3 G12 G13 G23 nu12 nu13 nu23 sig 0 2
          + orthotropicStrain E1 E2 E3 G12 G13 G23 nu12 nu13 nu23 sig 2 0,
        orthotropicStrain E1 E2 E3 G12 G13 G23 nu12 nu13 nu23 sig 0 1
          + orthotropicStrain E1 E2 E3 G12 G13 G23 nu12 nu13 nu23 sig 1 0] : Fin 6 → ℝ)
        = (Matrix.of (compliance6 E1 E2 E3 G12 G13 G23 nu12 nu13 nu23)).mulVec
          ![sig 0 0, sig 1 1, sig 2 2, sig 1 2, sig 0 2, sig 0 1] := by
      funext b
      simp only [Matrix.mulVec, dotProduct, Fin.sum_univ_six, Matrix.of_apply, orthotropicStrain, compliance6]
      have h10 := hs 1 0
      have h20 := hs 2 0
      have h21 := hs 2 1
      fin_cases b <;> simp <;> grind
    rw [hv]
    show (((Matrix.of (compliance6 E1 E2 E3 G12 G13 G23 nu12 nu13 nu23))⁻¹).mulVec
      ((Matrix.of (compliance6 E1 E2 E3 G12 G13 G23 nu12 nu13 nu23)).mulVec _)) (voigtSlot i j) = _
    rw [Matrix.mulVec_mulVec, Matrix.nonsing_inv_mul _ hS, Matrix.one_mulVec]
    fin_cases i <;> fin_cases j <;> simp [voigtSlot]
    · exact hs 0 1
    · exact hs 0 2
    · exact hs 1 2
  · have hsym : (Matrix.of (compliance6 E1 E2 E3 G12 G13 G23 nu12 nu13 nu23)).transpose
        = Matrix.of (compliance6 E1 E2 E3 G12 G13 G23 nu12 nu13 nu23) := by
      ext a b
      fin_cases a <;> fin_cases b <;> rfl
    have hinv : ∀ a b, (Matrix.of (compliance6 E1 E2 E3 G12 G13 G23 nu12 nu13 nu23))⁻¹ a b
        = (Matrix.of (compliance6 E1 E2 E3 G12 G13 G23 nu12 nu13 nu23))⁻¹ b a := by
      intro a b
      have := Matrix.transpose_nonsing_inv (Matrix.of (compliance6 E1 E2 E3 G12 G13 G23 nu12 nu13 nu23))
      rw [hsym] at this
      exact congrFun (congrFun this b) a
    have hslot : ∀ i j, voigtSlot i j = voigtSlot j i := by decide
    intro i j k l
    simp only [orthotropic3d, voigtToTensor]
    exact ⟨by rw [hslot i j], by rw [hslot k l], hinv _ _⟩

/-- The determinant of the block of normal components of the compliance. -/
noncomputable def normalDet (E1 E2 E3 nu12 nu13 nu23 : ℝ) : ℝ :=
  1 / E1 * (1 / E2 * (1 / E3) - (nu23 / E2) ^ 2) - nu12 / E1 * (nu12 / E1 * (1 / E3) + nu13 / E1 * (nu23 / E2))
    - nu13 / E1 * (nu12 / E1 * (nu23 / E2) + 1 / E2 * (nu13 / E1))

/-- The stiffness in Voigt form, written out. -/
noncomputable def stiffness6 (E1 E2 E3 G12 G13 G23 nu12 nu13 nu23 : ℝ) : Matrix (Fin 6) (Fin 6) ℝ :=
  let D := normalDet E1 E2 E3 nu12 nu13 nu23
  let a := 1 / E1
  let b := 1 / E2
  let c := 1 / E3
  let p := -nu12 / E1
  let q := -nu13 / E1
  let r := -nu23 / E2
  ![![(b * c - r * r) / D, (q * r - p * c) / D, (p * r - q * b) / D, 0, 0, 0],
    ![(q * r - p * c) / D, (a * c - q * q) / D, (p * q - a * r) / D, 0, 0, 0],
    ![(p * r - q * b) / D, (p * q - a * r) / D, (a * b - p * p) / D, 0, 0, 0],
    ![0, 0, 0, G23, 0, 0],
    ![0, 0, 0, 0, G13, 0],
    ![0, 0, 0, 0, 0, G12]]

theorem compliance6_mul (E1 E2 E3 G12 G13 G23 nu12 nu13 nu23 : ℝ) (hD : normalDet E1 E2 E3 nu12 nu13 nu23 ≠ 0)
    (h12 : G12 ≠ 0) (h13 : G13 ≠ 0) (h23 : G23 ≠ 0) :
    Matrix.of (compliance6 E1 E2 E3 G12 G13 G23 nu12 nu13 nu23) * stiffness6 E1 E2 E3 G12 G13 G23 nu12 nu13 nu23 = 1 := by
  obtain ⟨D, hDe⟩ : ∃ x, x = normalDet E1 E2 E3 nu12 nu13 nu23 := ⟨_, rfl⟩
  obtain ⟨a, ha⟩ : ∃ x, x = 1 / E1 := ⟨_, rfl⟩
  obtain ⟨b, hb⟩ : ∃ x, x = 1 / E2 := ⟨_, rfl⟩
  obtain ⟨c, hc⟩ : ∃ x, x = 1 / E3 := ⟨_, rfl⟩
  obtain ⟨p, hp⟩ : ∃ x, x = nu12 / E1 := ⟨_, rfl⟩
  obtain ⟨q, hq⟩ : ∃ x, x = nu13 / E1 := ⟨_, rfl⟩
  obtain ⟨r, hr⟩ : ∃ x, x = nu23 / E2 := ⟨_, rfl⟩
  have hD2 := hDe
  rw [normalDet, ← ha, ← hb, ← hc, ← hp, ← hq, ← hr] at hD2
  rw [← hDe] at hD
  ext i j
  rw [Matrix.mul_apply, Fin.sum_univ_six]
  simp only [stiffness6, ← hDe, compliance6, Matrix.of_apply, neg_div, ← ha, ← hb, ← hc, ← hp, ← hq, ← hr]
  clear hDe ha hb hc hp hq hr
  fin_cases i <;> fin_cases j <;> simp <;> grind

theorem orthotropic3d_eq (E1 E2 E3 G12 G13 G23 nu12 nu13 nu23 : ℝ) (hD : normalDet E1 E2 E3 nu12 nu13 nu23 ≠ 0)
    (h12 : G12 ≠ 0) (h13 : G13 ≠ 0) (h23 : G23 ≠ 0) :
    orthotropic3d E1 E2 E3 G12 G13 G23 nu12 nu13 nu23
      = voigtToTensor fun a b => stiffness6 E1 E2 E3 G12 G13 G23 nu12 nu13 nu23 a b := by
  simp only [orthotropic3d]
  rw [Matrix.inv_eq_right_inv (compliance6_mul E1 E2 E3 G12 G13 G23 nu12 nu13 nu23 hD h12 h13 h23)]

/-- A case with different constants. -/
example : IsUnit (Matrix.det (Matrix.of (compliance6 (130 : ℝ) 10 8 5 4 3 (3 / 10) (1 / 4) (2 / 5)))) :=
  (Matrix.isUnit_iff_isUnit_det _).mp (isUnit_iff_exists_inv.mpr
    ⟨_, compliance6_mul 130 10 8 5 4 3 (3 / 10) (1 / 4) (2 / 5) (by norm_num [normalDet]) (by norm_num) (by norm_num) (by norm_num)⟩)

end Verif.Props
