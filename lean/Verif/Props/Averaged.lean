import Verif.Props.Closure
import Verif.Props.Stiffness
import Mathlib.Tactic.Positivity

/-!
# C92: the orientation-averaged stiffness is the average of the rotated material
-/

namespace Verif.Props

open Verif.Model

/-- Fibres given by their shares and the rotations that take the first axis to them. -/
abbrev Fibres (d : ℕ) := List (ℝ × Arr2 ℝ (d + 1))

/-- The fibre directions: the image of the first axis. -/
def fibreOdf {d : ℕ} (L : Fibres d) : Odf (d + 1) := L.map fun f => (f.1, fun i => f.2 i 0)

/-- Shares of one and rotations. -/
structure IsFibres {d : ℕ} (L : Fibres d) : Prop where
  total : (L.map fun f => f.1).sum = 1
  rotation : ∀ f ∈ L, Orthogonal f.2

/-- The average of the stiffness turned to every fibre. -/
noncomputable def averageStiffness {d : ℕ} (C : Arr4 ℝ (d + 1)) (L : Fibres d) : Arr4 ℝ (d + 1) := fun i j k l =>
  (L.map fun f => f.1 * rotate4 C f.2 i j k l).sum

/-- The average of a second-order tensor turned to every fibre. -/
noncomputable def averageTensor {d : ℕ} (a : Arr2 ℝ (d + 1)) (L : Fibres d) : Arr2 ℝ (d + 1) := fun i j =>
  (L.map fun f => f.1 * rotate2 a f.2 i j).sum

/-- `p p`. -/
def dyad {d : ℕ} (p : Fin d → ℝ) : Arr2 ℝ d := fun i j => p i * p j

/-- `p p p p`. -/
def tetrad {d : ℕ} (p : Fin d → ℝ) : Arr4 ℝ d := fun i j k l => p i * p j * p k * p l

/-- The first axis. -/
noncomputable def firstAxis (d : ℕ) : Fin (d + 1) → ℝ := fun i => eye ℝ (d + 1) i 0

section
variable {d : ℕ}

theorem rotate4_13 (x y : Arr2 ℝ d) (R : Arr2 ℝ d) (i j k l : Fin d) :
    rotate4 (fun p q r s => x p r * y q s) R i j k l = rotate2 x R i k * rotate2 y R j l := by
  rw [rotate4_swap23 (fun p q r s => x p q * y r s), rotate4_outer]

theorem rotate4_14 (x y : Arr2 ℝ d) (R : Arr2 ℝ d) (i j k l : Fin d) :
    rotate4 (fun p q r s => x p s * y q r) R i j k l = rotate2 x R i l * rotate2 y R j k := by
  rw [rotate4_swap34 (fun p q r s => x p r * y q s), rotate4_13]

theorem rotate2_dyad (R : Arr2 ℝ (d + 1)) : rotate2 (dyad (firstAxis d)) R = dyad fun i => R i 0 := by
  funext i j
  simp [rotate2, dyad, firstAxis, eye]

/-- The form of the averaged stiffness, turned, is that form for the turned direction. -/
theorem form_rotate (B1 B2 B3 B4 B5 : ℝ) {R : Arr2 ℝ (d + 1)} (h : Orthogonal R) :
    rotate4 (averagedForm B1 B2 B3 B4 B5 (dyad (firstAxis d)) (tetrad (firstAxis d))) R
      = averagedForm B1 B2 B3 B4 B5 (dyad fun i => R i 0) (tetrad fun i => R i 0) := by
  funext i j k l
  have he := rotate2_eye h
  have hd := rotate2_dyad R
  set a := dyad (firstAxis d) with ha
  have hform : averagedForm B1 B2 B3 B4 B5 a (tetrad (firstAxis d)) = fun p q r s =>
      B1 * (a p q * a r s) + (B2 * (a p q * eye ℝ (d + 1) r s) + (B2 * (eye ℝ (d + 1) p q * a r s)
      + (B3 * (a p r * eye ℝ (d + 1) q s) + (B3 * (a p s * eye ℝ (d + 1) q r) + (B3 * (eye ℝ (d + 1) p s * a q r)
      + (B3 * (eye ℝ (d + 1) p r * a q s) + (B4 * (eye ℝ (d + 1) p q * eye ℝ (d + 1) r s)
      + (B5 * (eye ℝ (d + 1) p r * eye ℝ (d + 1) q s) + B5 * (eye ℝ (d + 1) p s * eye ℝ (d + 1) q r))))))))) := by
    funext p q r s
    simp only [averagedForm, tetrad, ha, dyad]
    ring
  rw [hform]
  simp only [rotate4_add, rotate4_smul, rotate4_outer, rotate4_13, rotate4_14, he, hd]
  simp only [averagedForm, tetrad, dyad]
  ring

/-- The form is affine in the pair of tensors. -/
theorem form_average (B1 B2 B3 B4 B5 : ℝ) (D : Odf d) (i j k l : Fin d) :
    averagedForm B1 B2 B3 B4 B5 (odf2 D) (odf4 D) i j k l
      + ((D.map fun f => f.1).sum - 1) * averagedForm B1 B2 B3 B4 B5 (fun _ _ => 0) (fun _ _ _ _ => 0) i j k l
      = (D.map fun f => f.1 * averagedForm B1 B2 B3 B4 B5 (dyad f.2) (tetrad f.2) i j k l).sum := by
  induction D with
  | nil => simp [averagedForm, odf2, odf4]
  | cons f D ih =>
    rw [List.map_cons, List.map_cons, List.sum_cons, List.sum_cons, ← ih]
    simp only [averagedForm, odf2_cons, odf4_cons, dyad, tetrad]
    ring

theorem average_form (B1 B2 B3 B4 B5 : ℝ) {L : Fibres d} (h : IsFibres L) :
    averagedForm B1 B2 B3 B4 B5 (odf2 (fibreOdf L)) (odf4 (fibreOdf L))
      = averageStiffness (averagedForm B1 B2 B3 B4 B5 (dyad (firstAxis d)) (tetrad (firstAxis d))) L := by
  funext i j k l
  have h1 := form_average B1 B2 B3 B4 B5 (fibreOdf L) i j k l
  have ht : ((fibreOdf L).map fun f => f.1).sum = 1 := by
    rw [fibreOdf, List.map_map]
    exact h.total
  rw [ht, sub_self, zero_mul, add_zero] at h1
  rw [h1, averageStiffness, fibreOdf, List.map_map]
  congr 1
  refine List.map_congr_left fun f hf => ?_
  rw [form_rotate B1 B2 B3 B4 B5 (h.rotation f hf)]
  rfl

end

/-! ### In the plane -/

theorem lamina_form (E1 E2 G12 nu12 : ℝ) :
    averagedStiffness (dyad (firstAxis 1)) (tetrad (firstAxis 1)) E1 E2 G12 nu12 = orthotropicInPlane E1 E2 G12 nu12 := by
  funext i j k l
  simp only [averagedStiffness, orthotropicInPlane, averagedForm, dyad, tetrad, firstAxis]
  generalize 1 / (1 - nu12 * (nu12 * E2 / E1)) = m
  generalize nu12 * E2 / E1 = n
  fin_cases i <;> fin_cases j <;> fin_cases k <;> fin_cases l <;> simp [eye, set4] <;> ring

/-- **C92.** In the plane: for every finite distribution of fibres, the averaged stiffness of its two orientation tensors is the average of
the orthotropic stiffness turned to every fibre. -/
theorem C92_average {L : Fibres 1} (h : IsFibres L) (E1 E2 G12 nu12 : ℝ) :
    averagedStiffness (odf2 (fibreOdf L)) (odf4 (fibreOdf L)) E1 E2 G12 nu12
      = averageStiffness (orthotropicInPlane E1 E2 G12 nu12) L := by
  rw [← lamina_form]
  exact average_form _ _ _ _ _ h

/-- Two fibre families at different angles. -/
noncomputable def exFibres : Fibres 1 :=
  [(1 / 4, planeRotation (3 / 5) (4 / 5)), (3 / 4, planeRotation (Real.cos 1) (Real.sin 1))]

theorem exFibres_ok : IsFibres exFibres := by
  constructor
  · simp [exFibres]; norm_num
  · intro f hf
    simp only [exFibres, List.mem_cons, List.not_mem_nil, or_false] at hf
    rcases hf with rfl | rfl
    · exact planeRotation_orthogonal (by norm_num)
    · exact planeRotation_orthogonal (Real.cos_sq_add_sin_sq 1)

/-- **C92.** With all fibres at one angle, the averaged stiffness is the lamina turned by that angle. -/
theorem C92_single_angle (theta E1 E2 G12 nu12 : ℝ) :
    let p : Fin 2 → ℝ := ![Real.cos theta, Real.sin theta]
    averagedStiffness (fun i j => p i * p j) (fun i j k l => p i * p j * p k * p l) E1 E2 G12 nu12
      = rotateInPlane (orthotropicInPlane E1 E2 G12 nu12) theta := by
  intro p
  have hp : p = fun i => planeRotation (Real.cos theta) (Real.sin theta) i 0 := by
    funext i
    fin_cases i <;> rfl
  rw [rotateInPlane, ← lamina_form]
  have := form_rotate (d := 1) (1 / (1 - nu12 * (nu12 * E2 / E1)) * E1 + 1 / (1 - nu12 * (nu12 * E2 / E1)) * E2
    - 2 * (1 / (1 - nu12 * (nu12 * E2 / E1)) * (nu12 * E2 / E1) * E1) - 4 * G12)
    (1 / (1 - nu12 * (nu12 * E2 / E1)) * (nu12 * E2 / E1) * E1) (G12 - 1 / (1 - nu12 * (nu12 * E2 / E1)) * E2 / 2) 0
    (1 / (1 - nu12 * (nu12 * E2 / E1)) * E2 / 2) (planeRotation_orthogonal (Real.cos_sq_add_sin_sq theta))
  rw [hp]
  exact this.symm

/-- **C92.** The expansion tensor built from the second orientation tensor is the average of the turned `diag(fibre, transverse)`. -/
theorem C92_thermal {L : Fibres 1} (h : IsFibres L) (aF aT : ℝ) :
    thermalFromOrientation (odf2 (fibreOdf L)) aF aT = averageTensor ![![aF, 0], ![0, aT]] L := by
  obtain ⟨ht, hr⟩ := h
  have hb : (![![aF, 0], ![0, aT]] : Arr2 ℝ 2) = fun i j => aT * eye ℝ 2 i j + (aF - aT) * dyad (firstAxis 1) i j := by
    funext i j
    fin_cases i <;> fin_cases j <;> simp [eye, dyad, firstAxis]
  have key : ∀ L : Fibres 1, (∀ f ∈ L, Orthogonal f.2) → ∀ i j, aT * (L.map fun f => f.1).sum * eye ℝ 2 i j
      + (aF - aT) * odf2 (fibreOdf L) i j = averageTensor ![![aF, 0], ![0, aT]] L i j := by
    intro L
    induction L with
    | nil => intro _ i j; simp [fibreOdf, odf2, averageTensor]
    | cons f L ih =>
      intro hr i j
      have h1 := ih (fun g hg => hr g (List.mem_cons_of_mem _ hg)) i j
      have h2 : rotate2 ![![aF, 0], ![0, aT]] f.2 i j = aT * eye ℝ 2 i j + (aF - aT) * (f.2 i 0 * f.2 j 0) := by
        have h3 : rotate2 (eye ℝ 2) f.2 i j = eye ℝ 2 i j := congrFun (congrFun (rotate2_eye (hr f List.mem_cons_self)) i) j
        have h4 : rotate2 (d := 2) (dyad (firstAxis 1)) f.2 i j = f.2 i 0 * f.2 j 0 := congrFun (congrFun (rotate2_dyad (d := 1) f.2) i) j
        rw [hb, ← h3, ← h4]
        simp only [rotate2, Fin.sum_univ_two]
        ring
      simp only [averageTensor, List.map_cons, List.sum_cons] at h1 ⊢
      rw [← h1, h2]
      have h3 : odf2 (fibreOdf (f :: L)) i j = f.1 * (f.2 i 0 * f.2 j 0) + odf2 (fibreOdf L) i j := by
        rw [fibreOdf, List.map_cons, odf2_cons]
        rfl
      rw [h3]
      ring
  funext i j
  rw [← key L hr i j, ht, mul_one]
  rfl

/-! ### In space -/

theorem transverse_entries (E1 E2 G12 nu12 nu23 : ℝ) (h1 : E1 ≠ 0) (h2 : E2 ≠ 0) (hG : G12 ≠ 0) (hn : 1 + nu23 ≠ 0)
    (hD : 1 - nu23 - 2 * nu12 * (nu12 * E2 / E1) ≠ 0) :
    let n := nu12 * E2 / E1
    let m := 1 / ((1 + nu23) * (1 - nu23 - 2 * nu12 * n))
    transverseIsotropic3d E1 E2 G12 nu12 nu23 = voigtToTensor (
      ![![E1 * (1 - nu23 ^ 2) * m, E1 * n * (1 + nu23) * m, E1 * n * (1 + nu23) * m, 0, 0, 0],
        ![E1 * n * (1 + nu23) * m, E2 * (1 - nu12 * n) * m, E2 * (nu23 + nu12 * n) * m, 0, 0, 0],
        ![E1 * n * (1 + nu23) * m, E2 * (nu23 + nu12 * n) * m, E2 * (1 - nu12 * n) * m, 0, 0, 0],
        ![0, 0, 0, E2 / (2 * (1 + nu23)), 0, 0],
        ![0, 0, 0, 0, G12, 0],
        ![0, 0, 0, 0, 0, G12]] : Fin 6 → Fin 6 → ℝ) := by
  intro n m
  have hdet : normalDet E1 E2 E2 nu12 nu12 nu23 = (1 + nu23) * (1 - nu23 - 2 * nu12 * n) / (E1 * E2 ^ 2) := by
    simp only [normalDet, n]
    field_simp
    ring
  have hdn : normalDet E1 E2 E2 nu12 nu12 nu23 ≠ 0 := by
    rw [hdet]
    exact div_ne_zero (mul_ne_zero hn hD) (mul_ne_zero h1 (pow_ne_zero 2 h2))
  have hm : m * ((1 + nu23) * (1 - nu23 - 2 * nu12 * n)) = 1 := one_div_mul_cancel (mul_ne_zero hn hD)
  have hnE : n * E1 = nu12 * E2 := div_mul_cancel₀ _ h1
  have hinv : (normalDet E1 E2 E2 nu12 nu12 nu23)⁻¹ = m * (E1 * E2 ^ 2) := by
    rw [hdet, inv_div, one_div_mul_eq_div]
  have hG23 : E2 / (2 * (1 + nu23)) ≠ 0 := div_ne_zero h2 (mul_ne_zero two_ne_zero hn)
  simp only [transverseIsotropic3d]
  rw [orthotropic3d_eq _ _ _ _ _ _ _ _ _ hdn hG hG hG23]
  congr 1
  funext a b
  simp only [stiffness6, div_eq_mul_inv _ (normalDet E1 E2 E2 nu12 nu12 nu23), hinv]
  clear hdet hdn hinv hG23 hD hG hn
  clear_value n m
  fin_cases a <;> fin_cases b <;> simp <;> grind

theorem solid_form (E1 E2 G12 nu12 nu23 : ℝ) (h1 : E1 ≠ 0) (h2 : E2 ≠ 0) (hG : G12 ≠ 0) (hn : 1 + nu23 ≠ 0)
    (hD : 1 - nu23 - 2 * nu12 * (nu12 * E2 / E1) ≠ 0) :
    averagedStiffness3d (dyad (firstAxis 2)) (tetrad (firstAxis 2)) E1 E2 G12 nu12 nu23
      = transverseIsotropic3d E1 E2 G12 nu12 nu23 := by
  rw [transverse_entries E1 E2 G12 nu12 nu23 h1 h2 hG hn hD]
  have hm : 1 / ((1 + nu23) * (1 - nu23 - 2 * nu12 * (nu12 * E2 / E1))) * ((1 + nu23) * (1 - nu23 - 2 * nu12 * (nu12 * E2 / E1))) = 1 :=
    one_div_mul_cancel (mul_ne_zero hn hD)
  have hnE : nu12 * E2 / E1 * E1 = nu12 * E2 := div_mul_cancel₀ _ h1
  funext i j k l
  simp only [averagedStiffness3d]
  generalize 1 / ((1 + nu23) * (1 - nu23 - 2 * nu12 * (nu12 * E2 / E1))) = m at hm ⊢
  generalize nu12 * E2 / E1 = n at hm hnE ⊢
  have hs : E2 / (2 * (1 + nu23)) = (E2 * (1 - nu12 * n) * m - E2 * (nu23 + nu12 * n) * m) / 2 := by
    rw [div_eq_iff (mul_ne_zero two_ne_zero hn)]
    linear_combination (-E2) * hm
  rw [hs]
  generalize E1 * (1 - nu23 ^ 2) * m = c11
  generalize E1 * n * (1 + nu23) * m = c12
  generalize E2 * (1 - nu12 * n) * m = c22
  generalize E2 * (nu23 + nu12 * n) * m = c23
  simp only [averagedForm, dyad, tetrad, firstAxis, voigtToTensor]
  fin_cases i <;> fin_cases j <;> fin_cases k <;> fin_cases l <;> simp [eye, voigtSlot] <;> ring

/-- **C92.** In space: for every finite distribution of fibres, the averaged stiffness of its two orientation tensors is the average of the
transversely isotropic stiffness turned to every fibre. -/
theorem C92_average_3d {L : Fibres 2} (h : IsFibres L) (E1 E2 G12 nu12 nu23 : ℝ) (h1 : E1 ≠ 0) (h2 : E2 ≠ 0) (hG : G12 ≠ 0)
    (hn : 1 + nu23 ≠ 0) (hD : 1 - nu23 - 2 * nu12 * (nu12 * E2 / E1) ≠ 0) :
    averagedStiffness3d (odf2 (fibreOdf L)) (odf4 (fibreOdf L)) E1 E2 G12 nu12 nu23
      = averageStiffness (transverseIsotropic3d E1 E2 G12 nu12 nu23) L := by
  rw [← solid_form E1 E2 G12 nu12 nu23 h1 h2 hG hn hD]
  exact average_form _ _ _ _ _ h

/-- Carbon fibres in two directions of space. -/
theorem exFibres3 : ∃ L : Fibres 2, IsFibres L ∧ L.length = 2 ∧ (1 : ℝ) + 2 / 5 ≠ 0 ∧ (1 : ℝ) - 2 / 5 - 2 * (3 / 10) * (3 / 10 * 10 / 130) ≠ 0 := by
  refine ⟨[(1 / 3, eye ℝ 3), (2 / 3, rotationMatrixAxis 1 ![1, 2, 2])], ⟨by norm_num, ?_⟩, rfl, by norm_num, by norm_num⟩
  intro f hf
  simp only [List.mem_cons, List.not_mem_nil, or_false] at hf
  rcases hf with rfl | rfl
  · intro i j
    simp [eye]
  · exact (C91_axis_rotation ![1, 2, 2] (by intro h; simpa using congrFun h 0) 1 1).1

/-! ### What follows for the averaged material -/

/-- The strain energy density is positive for every strain but zero. -/
def StrictlyStable {d : ℕ} (C : Arr4 ℝ d) : Prop :=
  ∀ e : Arr2 ℝ d, (∀ i j, e i j = e j i) → e ≠ 0 → 0 < ∑ i, ∑ j, e i j * ddot C e i j

theorem rotate2_inner {d : ℕ} (a b : Arr2 ℝ (d + 1)) {R : Arr2 ℝ (d + 1)} (h : Orthogonal R) :
    ∑ i, ∑ j, rotate2 a R i j * rotate2 b R i j = ∑ i, ∑ j, a i j * b i j := by
  have h1 := congrFun (congrFun (C91_rotation_covariant (fun p q r s => eye ℝ (d + 1) p q * a r s) b h) 0) 0
  have h2 : rotate4 (fun p q r s => eye ℝ (d + 1) p q * a r s) R = fun i j k l => eye ℝ (d + 1) i j * rotate2 a R k l := by
    funext i j k l
    rw [rotate4_outer, rotate2_eye h]
  rw [h2] at h1
  have h3 : ddot (fun p q r s => eye ℝ (d + 1) p q * a r s) b = fun p q => (∑ i, ∑ j, a i j * b i j) * eye ℝ (d + 1) p q := by
    funext p q
    simp only [ddot, Finset.sum_mul]
    exact Finset.sum_congr rfl fun k _ => Finset.sum_congr rfl fun l _ => by ring
  rw [h3] at h1
  have h4 : rotate2 (fun p q => (∑ i, ∑ j, a i j * b i j) * eye ℝ (d + 1) p q) R 0 0 = ∑ i, ∑ j, a i j * b i j := by
    have h5 : rotate2 (fun p q => (∑ i, ∑ j, a i j * b i j) * eye ℝ (d + 1) p q) R 0 0
        = (∑ i, ∑ j, a i j * b i j) * rotate2 (eye ℝ (d + 1)) R 0 0 := by
      simp only [rotate2, Finset.mul_sum]
      exact Finset.sum_congr rfl fun k _ => Finset.sum_congr rfl fun l _ => by ring
    rw [h5, rotate2_eye h]
    simp [eye]
  rw [h4] at h1
  rw [← h1]
  simp [ddot, eye]

theorem rotate_stable {d : ℕ} {C : Arr4 ℝ (d + 1)} (hC : StrictlyStable C) {R : Arr2 ℝ (d + 1)} (h : Orthogonal R) :
    StrictlyStable (rotate4 C R) := by
  intro e hs he
  obtain ⟨e', he'⟩ : ∃ x, x = rotate2 e (fun i j => R j i) := ⟨_, rfl⟩
  have hback : rotate2 e' R = e := by
    have := (C91_rotation_composes (fun _ _ _ _ => 0) e (fun i j => R j i) R).2.2.1
    rw [he', this]
    have h1 : (fun i j => ∑ k, R i k * R j k) = eye ℝ (d + 1) := by
      funext i j
      exact h i j
    rw [h1]
    exact (C91_rotation_composes (fun _ _ _ _ => 0) e R R).2.1
  have hs' : ∀ i j, e' i j = e' j i := by
    intro i j
    rw [he']
    simp only [rotate2]
    rw [Finset.sum_comm]
    exact Finset.sum_congr rfl fun p _ => Finset.sum_congr rfl fun q _ => by rw [hs q p]; ring
  have hne : e' ≠ 0 := by
    intro h0
    apply he
    rw [← hback, h0]
    funext i j
    simp [rotate2]
  have := hC e' hs' hne
  rw [← hback, C91_rotation_covariant C e' h]
  rw [rotate2_inner e' (ddot C e') h]
  exact this

theorem average_energy {d : ℕ} (C : Arr4 ℝ (d + 1)) (L : Fibres d) (e : Arr2 ℝ (d + 1)) :
    ∑ i, ∑ j, e i j * ddot (averageStiffness C L) e i j
      = (L.map fun f => f.1 * ∑ i, ∑ j, e i j * ddot (rotate4 C f.2) e i j).sum := by
  induction L with
  | nil => simp [averageStiffness, ddot]
  | cons f L ih =>
    rw [List.map_cons, List.sum_cons, ← ih]
    have h1 : ∀ i j, ddot (averageStiffness C (f :: L)) e i j
        = f.1 * ddot (rotate4 C f.2) e i j + ddot (averageStiffness C L) e i j := by
      intro i j
      simp only [ddot, averageStiffness, List.map_cons, List.sum_cons, add_mul, Finset.sum_add_distrib, Finset.mul_sum]
      congr 1
      exact Finset.sum_congr rfl fun k _ => Finset.sum_congr rfl fun l _ => by ring
    simp only [h1, mul_add, Finset.sum_add_distrib, Finset.mul_sum]
    congr 1
    exact Finset.sum_congr rfl fun k _ => Finset.sum_congr rfl fun l _ => by ring

theorem average_stable {d : ℕ} {C : Arr4 ℝ (d + 1)} (hC : StrictlyStable C) {L : Fibres d} (h : IsFibres L)
    (hw : ∀ f ∈ L, 0 ≤ f.1) : StrictlyStable (averageStiffness C L) := by
  intro e hs he
  rw [average_energy]
  obtain ⟨ht, hr⟩ := h
  have hpos : ∀ f ∈ L, 0 < ∑ i, ∑ j, e i j * ddot (rotate4 C f.2) e i j := fun f hf => rotate_stable hC (hr f hf) e hs he
  have key : ∀ L : Fibres d, (∀ f ∈ L, 0 ≤ f.1) → (∀ f ∈ L, 0 < ∑ i, ∑ j, e i j * ddot (rotate4 C f.2) e i j) →
      0 < (L.map fun f => f.1).sum → 0 < (L.map fun f => f.1 * ∑ i, ∑ j, e i j * ddot (rotate4 C f.2) e i j).sum := by
    intro L
    induction L with
    | nil => intro _ _ h; simp at h
    | cons f L ih =>
      intro hw hp hs
      simp only [List.map_cons, List.sum_cons] at hs ⊢
      have hf := hp f List.mem_cons_self
      have hwf := hw f List.mem_cons_self
      have hrest : 0 ≤ (L.map fun f => f.1 * ∑ i, ∑ j, e i j * ddot (rotate4 C f.2) e i j).sum := by
        apply List.sum_nonneg
        intro x hx
        obtain ⟨g, hg, rfl⟩ := List.mem_map.mp hx
        exact mul_nonneg (hw g (List.mem_cons_of_mem _ hg)) (hp g (List.mem_cons_of_mem _ hg)).le
      rcases hwf.eq_or_lt with h0 | h0
      · rw [← h0, zero_mul, zero_add]
        rw [← h0, zero_add] at hs
        exact ih (fun g hg => hw g (List.mem_cons_of_mem _ hg)) (fun g hg => hp g (List.mem_cons_of_mem _ hg)) hs
      · exact add_pos_of_pos_of_nonneg (mul_pos h0 hf) hrest
  exact key L hw hpos (by rw [ht]; norm_num)

theorem lamina_stable {E1 E2 G12 nu12 : ℝ} (h1 : 0 < E1) (h2 : 0 < E2) (hG : 0 < G12) (hn : nu12 ^ 2 * E2 < E1) :
    StrictlyStable (orthotropicInPlane E1 E2 G12 nu12) := by
  intro e hs he
  have hd : 0 < 1 - nu12 * (nu12 * E2 / E1) := by
    rw [sub_pos, ← mul_div_assoc, div_lt_one h1]
    nlinarith
  obtain ⟨n, hn'⟩ : ∃ n, n = nu12 * E2 / E1 := ⟨_, rfl⟩
  have hnE : n * E1 = nu12 * E2 := by rw [hn', div_mul_cancel₀ _ h1.ne']
  have hsum : ∑ i, ∑ j, e i j * ddot (orthotropicInPlane E1 E2 G12 nu12) e i j
      = 1 / (1 - nu12 * n) * (E1 * e 0 0 ^ 2 + 2 * (n * E1) * e 0 0 * e 1 1 + E2 * e 1 1 ^ 2) + 4 * G12 * e 0 1 ^ 2 := by
    simp only [orthotropicInPlane, ← hn']
    generalize 1 / (1 - nu12 * n) = m
    simp [ddot, Fin.sum_univ_two, set4, hs 1 0]
    ring
  rw [hsum]
  rw [← hn'] at hd
  have hm : 0 < 1 / (1 - nu12 * n) := one_div_pos.mpr hd
  have hq : E1 * e 0 0 ^ 2 + 2 * (n * E1) * e 0 0 * e 1 1 + E2 * e 1 1 ^ 2
      = E1 * (e 0 0 + n * e 1 1) ^ 2 + E2 * (1 - nu12 * n) * e 1 1 ^ 2 := by
    linear_combination (-(n * e 1 1 ^ 2)) * hnE
  rw [hq]
  have hA : 0 ≤ E1 * (e 0 0 + n * e 1 1) ^ 2 := by positivity
  have hB : 0 ≤ E2 * (1 - nu12 * n) * e 1 1 ^ 2 := by positivity
  have hCn : 0 ≤ 4 * G12 * e 0 1 ^ 2 := by positivity
  rcases (add_nonneg (mul_nonneg hm.le (add_nonneg hA hB)) hCn).eq_or_lt with h0 | h0
  · exfalso
    apply he
    have hc : 4 * G12 * e 0 1 ^ 2 = 0 := by nlinarith [mul_nonneg hm.le (add_nonneg hA hB)]
    have hab : E1 * (e 0 0 + n * e 1 1) ^ 2 + E2 * (1 - nu12 * n) * e 1 1 ^ 2 = 0 := by
      have : 1 / (1 - nu12 * n) * (E1 * (e 0 0 + n * e 1 1) ^ 2 + E2 * (1 - nu12 * n) * e 1 1 ^ 2) = 0 := by linarith
      exact (mul_eq_zero.mp this).resolve_left hm.ne'
    have ha : E1 * (e 0 0 + n * e 1 1) ^ 2 = 0 := by linarith
    have hb : E2 * (1 - nu12 * n) * e 1 1 ^ 2 = 0 := by linarith
    have e01 : e 0 1 = 0 := pow_eq_zero_iff two_ne_zero |>.mp ((mul_eq_zero.mp hc).resolve_left (by positivity))
    have e11 : e 1 1 = 0 := pow_eq_zero_iff two_ne_zero |>.mp ((mul_eq_zero.mp hb).resolve_left (by positivity))
    have e00 : e 0 0 + n * e 1 1 = 0 := pow_eq_zero_iff two_ne_zero |>.mp ((mul_eq_zero.mp ha).resolve_left h1.ne')
    rw [e11, mul_zero, add_zero] at e00
    funext i j
    fin_cases i <;> fin_cases j
    · exact e00
    · exact e01
    · exact (hs 1 0).trans e01
    · exact e11
  · exact h0

/-- Every distribution of directions in the plane is one of rotations. -/
theorem odf_fibres {D : Odf 2} (h : IsOdf D) :
    ∃ L : Fibres 1, IsFibres L ∧ (∀ f ∈ L, 0 ≤ f.1) ∧ fibreOdf L = D := by
  refine ⟨D.map fun f => (f.1, planeRotation (f.2 0) (f.2 1)), ⟨?_, ?_⟩, ?_, ?_⟩
  · rw [List.map_map]
    exact h.total
  · intro g hg
    obtain ⟨f, hf, rfl⟩ := List.mem_map.mp hg
    have := h.unit f hf
    rw [Fin.sum_univ_two] at this
    exact planeRotation_orthogonal this
  · intro g hg
    obtain ⟨f, hf, rfl⟩ := List.mem_map.mp hg
    exact h.nonneg f hf
  · rw [fibreOdf, List.map_map]
    conv_rhs => rw [← List.map_id D]
    refine List.map_congr_left fun f _ => ?_
    apply Prod.ext
    · rfl
    · funext i
      fin_cases i <;> rfl

/-- **C92.** The averaged stiffness of a stable lamina is stable, for every distribution of directions: its energy is positive for every
strain but zero. -/
theorem C92_stable {D : Odf 2} (h : IsOdf D) {E1 E2 G12 nu12 : ℝ} (h1 : 0 < E1) (h2 : 0 < E2) (hG : 0 < G12)
    (hn : nu12 ^ 2 * E2 < E1) :
    StrictlyStable (averagedStiffness (odf2 D) (odf4 D) E1 E2 G12 nu12) := by
  obtain ⟨L, hL, hw, rfl⟩ := odf_fibres h
  rw [C92_average hL]
  exact average_stable (lamina_stable h1 h2 hG hn) hL hw

/-- Carbon-epoxy constants and two fibre families. -/
example : IsOdf exAligned ∧ (3 / 10 : ℝ) ^ 2 * 10 < 130 := ⟨exAligned_ok.1, by norm_num⟩

theorem form_symmetric {d : ℕ} (B1 B2 B3 B4 B5 : ℝ) (a2 : Arr2 ℝ d) (a4 : Arr4 ℝ d) (h2 : ∀ i j, a2 i j = a2 j i)
    (h4 : FullySymmetric a4) : StiffnessSymmetric (averagedForm B1 B2 B3 B4 B5 a2 a4) := by
  intro i j k l
  have e := fun i j : Fin d => eye_symm i j
  have h13 : a4 i j k l = a4 k l i j := by
    rw [(h4 i j k l).2.1, (h4 i k j l).1, (h4 k i j l).2.2, (h4 k i l j).2.1]
  simp only [averagedForm]
  refine ⟨?_, ?_, ?_⟩
  · rw [(h4 i j k l).1, h2 i j, e i j]
    ring
  · rw [(h4 i j k l).2.2, h2 k l, e k l]
    ring
  · rw [h13, e i k, e j l, e i l, e j k, h2 i k, h2 i l, h2 j k, h2 j l]
    ring

/-- **C92.** The averaged stiffness has the minor and major symmetries for every symmetric pair of tensors, in the plane and in space. -/
theorem C92_symmetric :
    (∀ (a2 : Arr2 ℝ 2) (a4 : Arr4 ℝ 2), (∀ i j, a2 i j = a2 j i) → FullySymmetric a4 → ∀ E1 E2 G12 nu12 : ℝ,
      StiffnessSymmetric (averagedStiffness a2 a4 E1 E2 G12 nu12)) ∧
    (∀ (a2 : Arr2 ℝ 3) (a4 : Arr4 ℝ 3), (∀ i j, a2 i j = a2 j i) → FullySymmetric a4 → ∀ E1 E2 G12 nu12 nu23 : ℝ,
      StiffnessSymmetric (averagedStiffness3d a2 a4 E1 E2 G12 nu12 nu23)) :=
  ⟨fun a2 a4 h2 h4 _ _ _ _ => form_symmetric _ _ _ _ _ a2 a4 h2 h4, fun a2 a4 h2 h4 _ _ _ _ _ => form_symmetric _ _ _ _ _ a2 a4 h2 h4⟩

theorem form_random {d : ℕ} (hd : 0 < d) {D : Odf d} (h : IsOdf D) (hr : Random D) (B1 B2 B3 B4 B5 : ℝ) :
    averagedForm B1 B2 B3 B4 B5 (odf2 D) (odf4 D)
      = lame (B1 / (d * (d + 2)) + 2 * B2 / d + B4) (B1 / (d * (d + 2)) + 2 * B3 / d + B5) := by
  obtain ⟨h4, h2⟩ := random_moments hd h hr
  rw [h4, h2]
  funext i j k l
  simp only [averagedForm, lame, isoPart]
  ring

/-- **C92.** Without a preferred direction the averaged stiffness is isotropic: the same in every frame, in the plane and in space. -/
theorem C92_random_isotropic :
    (∀ D : Odf 2, IsOdf D → Random D → ∀ (E1 E2 G12 nu12 : ℝ) (R : Arr2 ℝ 2), Orthogonal R →
      rotate4 (averagedStiffness (odf2 D) (odf4 D) E1 E2 G12 nu12) R = averagedStiffness (odf2 D) (odf4 D) E1 E2 G12 nu12) ∧
    (∀ D : Odf 3, IsOdf D → Random D → ∀ (E1 E2 G12 nu12 nu23 : ℝ) (R : Arr2 ℝ 3), Orthogonal R →
      rotate4 (averagedStiffness3d (odf2 D) (odf4 D) E1 E2 G12 nu12 nu23) R
        = averagedStiffness3d (odf2 D) (odf4 D) E1 E2 G12 nu12 nu23) := by
  constructor
  · intro D h hr E1 E2 G12 nu12 R hR
    simp only [averagedStiffness]
    rw [form_random (by norm_num) h hr]
    exact lame_rotate _ _ hR
  · intro D h hr E1 E2 G12 nu12 nu23 R hR
    simp only [averagedStiffness3d]
    rw [form_random (by norm_num) h hr]
    exact lame_rotate _ _ hR

example : IsOdf exRandom ∧ Random exRandom := exRandom_ok

example := C92_average exFibres_ok 130 10 5 (3 / 10)
example := C92_thermal exFibres_ok 1 20
example := C92_stable exAligned_ok.1 (E1 := 130) (E2 := 10) (G12 := 5) (nu12 := 3 / 10) (by norm_num) (by norm_num) (by norm_num)
  (by norm_num)

/-- **C91.** A transversely isotropic material answers alike in all directions across its fibre: turning or mirroring it about the first
axis changes neither its stiffness nor its expansion. Its expansion is `a1` along and `a2` across the fibre, without shear, and that of an
isotropic material is the same in every direction. -/
theorem C91_transverse_isotropic (E1 E2 G12 nu12 nu23 a1 a2 al : ℝ) (h1 : E1 ≠ 0) (h2 : E2 ≠ 0) (hG : G12 ≠ 0) (hn : 1 + nu23 ≠ 0)
    (hD : 1 - nu23 - 2 * nu12 * (nu12 * E2 / E1) ≠ 0) {R : Arr2 ℝ 3} (hR : Orthogonal R) :
    ((∀ i, R i 0 = if i = 0 then 1 else 0) → rotate4 (transverseIsotropic3d E1 E2 G12 nu12 nu23) R = transverseIsotropic3d E1 E2 G12 nu12 nu23 ∧
      rotate2 (transverseCte a1 a2) R = transverseCte a1 a2) ∧
    (∀ p : Fin 3 → ℝ, ∑ i, ∑ j, p i * transverseCte a1 a2 i j * p j = a1 * p 0 ^ 2 + a2 * (p 1 ^ 2 + p 2 ^ 2)) ∧
    rotate2 (isotropicCte al) R = isotropicCte al ∧
    ∀ p : Fin 3 → ℝ, ∑ i, ∑ j, p i * isotropicCte al i j * p j = al * ∑ i, p i ^ 2 := by
  have hax : (∀ i, R i 0 = if i = 0 then 1 else 0) → (fun i => R i 0) = firstAxis 2 := by
    intro h
    funext i
    rw [h i]
    simp [firstAxis, eye]
  have hlin : ∀ (c e : ℝ) (x y : Arr2 ℝ 3), rotate2 (fun i j => c * x i j + e * y i j) R = fun i j => c * rotate2 x R i j + e * rotate2 y R i j := by
    intro c e x y
    funext i j
    simp only [rotate2, Finset.mul_sum, ← Finset.sum_add_distrib]
    exact Finset.sum_congr rfl fun p _ => Finset.sum_congr rfl fun q _ => by ring
  refine ⟨fun h => ⟨?_, ?_⟩, ?_, ?_, ?_⟩
  · rw [← solid_form E1 E2 G12 nu12 nu23 h1 h2 hG hn hD]
    simp only [averagedStiffness3d]
    rw [form_rotate _ _ _ _ _ hR, hax h]
  · have hc : transverseCte a1 a2 = fun i j => a2 * eye ℝ 3 i j + (a1 - a2) * dyad (firstAxis 2) i j := by
      funext i j
      fin_cases i <;> fin_cases j <;> simp [transverseCte, eye, dyad, firstAxis]
    rw [hc, hlin, rotate2_eye hR, rotate2_dyad, hax h]
  · intro p
    simp [transverseCte, Fin.sum_univ_three]
    ring
  · have hc : isotropicCte al = fun i j => al * eye ℝ 3 i j + 0 * eye ℝ 3 i j := by
      funext i j
      simp [isotropicCte]
    rw [hc, hlin, rotate2_eye hR]
  · intro p
    simp [isotropicCte, eye, Fin.sum_univ_three]
    ring

example := (C91_transverse_isotropic 130 10 5 (3 / 10) (2 / 5) 1 20 12 (by norm_num) (by norm_num) (by norm_num) (by norm_num) (by norm_num)
  (C91_axis_rotation ![1, 0, 0] (by intro h; simpa using congrFun h 0) 1 1).1).1 (by
    intro i
    have := (C91_axis_rotation ![1, 0, 0] (by intro h; simpa using congrFun h 0) 1 1).2.2.1 i
    rw [Fin.sum_univ_three] at this
    fin_cases i <;> simpa using this)

end Verif.Props
