import Verif.Model.Voigt
import Mathlib.Tactic.Ring
import Mathlib.Tactic.FieldSimp
import Mathlib.Tactic.LinearCombination
import Mathlib.Tactic.FinCases
import Mathlib.Tactic.NormNum
import Mathlib.Algebra.BigOperators.Ring.Finset
import Mathlib.Algebra.CharZero.Defs
import Mathlib.Algebra.Ring.CharZero
import Mathlib.Algebra.Order.Ring.Rat

/-!
# Directional Young's modulus: C63
-/

namespace Verif.Props
open Verif.Model

section
variable {K : Type} [Field K]

/-! ## Specification -/

/-- Unit uniaxial stress along `n`, `σ = n ⊗ n`, in Voigt order 11, 22, 33, 23, 13, 12. -/
def uniaxialStress (n : Fin 3 → K) : Fin 6 → K :=
  ![n 0 * n 0, n 1 * n 1, n 2 * n 2, n 1 * n 2, n 0 * n 2, n 0 * n 1]

/-- The strain tensor of an engineering Voigt strain: shear components are twice the tensor components. -/
def strainTensor (e : Fin 6 → K) : Fin 3 → Fin 3 → K :=
  ![![e 0, e 5 / 2, e 4 / 2], ![e 5 / 2, e 1, e 3 / 2], ![e 4 / 2, e 3 / 2, e 2]]

/-- The elongation along `n`: `n · ε n`. -/
def elongation (e : Fin 6 → K) (n : Fin 3 → K) : K := ∑ i, ∑ j, n i * strainTensor e i j * n j

/-- Isotropic stiffness with Lamé constants `l`, `g`. -/
def isotropic (l g : K) : Fin 6 → Fin 6 → K :=
  ![![l + 2 * g, l, l, 0, 0, 0], ![l, l + 2 * g, l, 0, 0, 0], ![l, l, l + 2 * g, 0, 0, 0],
    ![0, 0, 0, g, 0, 0], ![0, 0, 0, 0, g, 0], ![0, 0, 0, 0, 0, g]]

/-! ## Proofs -/

/-- Position of a tensor pair in the Voigt order. -/
def voigtIndex : Fin 3 → Fin 3 → Fin 6 := ![![0, 5, 4], ![5, 1, 3], ![4, 3, 2]]

/-- The divisor of an entry. -/
def voigtFactor (i j k l : Fin 3) : K :=
  let f1 : K := if i = j then 1 else 2
  if k = l then f1 else f1 * 2

set_option maxRecDepth 100000 in
theorem compliance_entry (S : Fin 6 → Fin 6 → K) (i j k l : Fin 3) :
    complianceTensor S i j k l = S (voigtIndex i j) (voigtIndex k l) / voigtFactor i j k l := by
  fin_cases i <;> fin_cases j <;> fin_cases k <;> fin_cases l <;> rfl

/-- The denominator is `m(n)ᵀ S m(n)` with `m(n)` the Voigt components of `n ⊗ n`. -/
theorem denominator_eq [CharZero K] (S : Fin 6 → Fin 6 → K) (n : Fin 3 → K) :
    (∑ i, ∑ j, n i * (∑ p, ∑ q, complianceTensor S i p j q * n p * n q) * n j)
      = ∑ a, ∑ b, uniaxialStress n a * S a b * uniaxialStress n b := by
  simp only [compliance_entry]
  simp only [Fin.sum_univ_three, Fin.sum_univ_six]
  simp [voigtIndex, voigtFactor, uniaxialStress]
  ring

theorem elongation_eq [CharZero K] (e : Fin 6 → K) (n : Fin 3 → K) :
    elongation e n = ∑ a, uniaxialStress n a * e a := by
  simp only [elongation, Fin.sum_univ_three, Fin.sum_univ_six]
  simp [strainTensor, uniaxialStress]
  ring

/-- **C63.** Load the material with stiffness `C` (engineering Voigt notation) by unit uniaxial stress along `n`: the
modulus returned is the stress over the elongation along `n`. `S` is what `np.linalg.inv(C)` returns. -/
theorem C63_modulus [CharZero K] (C S : Fin 6 → Fin 6 → K) (hS : ∀ i j, ∑ k, S i k * C k j = if i = j then 1 else 0)
    (n : Fin 3 → K) (e : Fin 6 → K) (he : ∀ i, ∑ j, C i j * e j = uniaxialStress n i) :
    youngsModulus S n = 1 / elongation e n := by
  have hSe : ∀ a, ∑ b, S a b * uniaxialStress n b = e a := by
    intro a
    simp only [← he, Finset.mul_sum]
    rw [Finset.sum_comm]
    have : ∀ y, ∑ x, S a x * (C x y * e y) = (if a = y then 1 else 0) * e y := by
      intro y
      rw [← hS a y, Finset.sum_mul]
      exact Finset.sum_congr rfl fun x _ => by ring
    simp [this]
  unfold youngsModulus
  simp only []
  rw [denominator_eq, elongation_eq]
  congr 1
  apply Finset.sum_congr rfl
  intro a _
  rw [← hSe a, Finset.mul_sum]
  exact Finset.sum_congr rfl fun b _ => by ring

/-- The same as a formula: `1 / (m(n)ᵀ S m(n))`, for every matrix `S` and every vector `n`. -/
theorem C63_formula [CharZero K] (S : Fin 6 → Fin 6 → K) (n : Fin 3 → K) :
    youngsModulus S n = 1 / ∑ a, ∑ b, uniaxialStress n a * S a b * uniaxialStress n b := by
  unfold youngsModulus
  simp only []
  rw [denominator_eq]

/-- **C63, isotropic material.** The modulus is the same in every direction, `μ (3 λ + 2 μ) / (λ + μ)`. -/
theorem C63_isotropic [CharZero K] (l g : K) (hg : g ≠ 0) (hk : 3 * l + 2 * g ≠ 0) (S : Fin 6 → Fin 6 → K)
    (hS : ∀ i j, ∑ k, S i k * isotropic l g k j = if i = j then 1 else 0) (n : Fin 3 → K)
    (hn : n 0 ^ 2 + n 1 ^ 2 + n 2 ^ 2 = 1) :
    youngsModulus S n = g * (3 * l + 2 * g) / (l + g) := by
  have h2 : (2 : K) ≠ 0 := two_ne_zero
  obtain ⟨q, hq⟩ : ∃ q : K, q * (3 * l + 2 * g) = l := ⟨l / (3 * l + 2 * g), div_mul_cancel₀ _ hk⟩
  obtain ⟨c, hc⟩ : ∃ c : K, 2 * g * c = 1 := ⟨1 / (2 * g), by field_simp⟩
  let e : Fin 6 → K :=
    ![(n 0 * n 0 - q) * c, (n 1 * n 1 - q) * c, (n 2 * n 2 - q) * c, n 1 * n 2 * (2 * c), n 0 * n 2 * (2 * c),
      n 0 * n 1 * (2 * c)]
  have he : ∀ i, ∑ j, isotropic l g i j * e j = uniaxialStress n i := by
    intro i
    rw [Fin.sum_univ_six]
    match i with
    | 0 =>
      change (l + 2 * g) * ((n 0 * n 0 - q) * c) + l * ((n 1 * n 1 - q) * c) + l * ((n 2 * n 2 - q) * c) + 0 * _ + 0 * _ + 0 * _ = n 0 * n 0
      linear_combination (n 0 * n 0) * hc + l * c * hn - c * hq
    | 1 =>
      change l * ((n 0 * n 0 - q) * c) + (l + 2 * g) * ((n 1 * n 1 - q) * c) + l * ((n 2 * n 2 - q) * c) + 0 * _ + 0 * _ + 0 * _ = n 1 * n 1
      linear_combination (n 1 * n 1) * hc + l * c * hn - c * hq
    | 2 =>
      change l * ((n 0 * n 0 - q) * c) + l * ((n 1 * n 1 - q) * c) + (l + 2 * g) * ((n 2 * n 2 - q) * c) + 0 * _ + 0 * _ + 0 * _ = n 2 * n 2
      linear_combination (n 2 * n 2) * hc + l * c * hn - c * hq
    | 3 =>
      change 0 * _ + 0 * _ + 0 * _ + g * (n 1 * n 2 * (2 * c)) + 0 * _ + 0 * _ = n 1 * n 2
      linear_combination (n 1 * n 2) * hc
    | 4 =>
      change 0 * _ + 0 * _ + 0 * _ + 0 * _ + g * (n 0 * n 2 * (2 * c)) + 0 * _ = n 0 * n 2
      linear_combination (n 0 * n 2) * hc
    | 5 =>
      change 0 * _ + 0 * _ + 0 * _ + 0 * _ + 0 * _ + g * (n 0 * n 1 * (2 * c)) = n 0 * n 1
      linear_combination (n 0 * n 1) * hc
  rw [C63_modulus _ S hS n e he, elongation_eq]
  have : ∑ a, uniaxialStress n a * e a = (l + g) / (g * (3 * l + 2 * g)) := by
    rw [Fin.sum_univ_six]
    change n 0 * n 0 * ((n 0 * n 0 - q) * c) + n 1 * n 1 * ((n 1 * n 1 - q) * c) + n 2 * n 2 * ((n 2 * n 2 - q) * c)
      + n 1 * n 2 * (n 1 * n 2 * (2 * c)) + n 0 * n 2 * (n 0 * n 2 * (2 * c)) + n 0 * n 1 * (n 0 * n 1 * (2 * c)) = _
    rw [eq_div_iff (mul_ne_zero hg hk)]
    have hs : n 0 * n 0 * ((n 0 * n 0 - q) * c) + n 1 * n 1 * ((n 1 * n 1 - q) * c) + n 2 * n 2 * ((n 2 * n 2 - q) * c)
      + n 1 * n 2 * (n 1 * n 2 * (2 * c)) + n 0 * n 2 * (n 0 * n 2 * (2 * c)) + n 0 * n 1 * (n 0 * n 1 * (2 * c)) = c * (1 - q) := by
      linear_combination c * (n 0 ^ 2 + n 1 ^ 2 + n 2 ^ 2 + 1 - q) * hn
    rw [hs]
    have h3 : c * (1 - q) * (g * (3 * l + 2 * g)) * 2 = (l + g) * 2 := by
      linear_combination (3 * l + 2 * g - l) * hc - (2 * g * c) * hq
    exact mul_right_cancel₀ h2 h3
  rw [this, one_div_div]

end

/-- The hypotheses are met by an orthotropic material. -/
example : (∀ i j, ∑ k, (fun a b : Fin 6 => if a = b then 1 / ((a : ℕ) + 1 : ℚ) else 0) i k * (fun a b : Fin 6 => if a = b then ((a : ℕ) + 1 : ℚ) else 0) k j
    = if i = j then 1 else 0) ∧
    youngsModulus (fun a b : Fin 6 => if a = b then 1 / ((a : ℕ) + 1 : ℚ) else 0) (![3 / 5, 4 / 5, 0] : Fin 3 → ℚ) = 625 / 233 := by
  constructor
  · decide +kernel
  · rw [C63_formula]; decide +kernel

end Verif.Props
