import Verif.Model.Voigt
import Mathlib.LinearAlgebra.Matrix.Notation
import Mathlib.LinearAlgebra.Matrix.NonsingularInverse
import Mathlib.Analysis.SpecialFunctions.Trigonometric.Basic
import Mathlib.Analysis.SpecialFunctions.Pow.Real

/-!
# Stiffness and thermal-expansion tensors of `feax.mechanics`

In-plane tensors of `feax.mechanics.shell` and three-dimensional ones of
`feax.mechanics.layered_solid_element`. Exact arithmetic replaces floating point.
-/

namespace Verif.Model

/-- A `(d, d)` array. -/
abbrev Arr2 (K : Type) (d : ℕ) := Fin d → Fin d → K

/-- A `(d, d, d, d)` array. -/
abbrev Arr4 (K : Type) (d : ℕ) := Fin d → Fin d → Fin d → Fin d → K

section field
variable {K : Type} [Field K] {d : ℕ}

/-- `np.eye(d)`. -/
def eye (K : Type) [Field K] (d : ℕ) : Arr2 K d := fun i j => if i = j then 1 else 0

/-- `np.einsum("ip,jq,kr,ls,pqrs->ijkl", R, R, R, R, C)`: `rotate_stiffness_3d`
(`/repo/feax/mechanics/layered_solid_element.py:211-216`) and the last line of `rotate_in_plane_stiffness`
(`/repo/feax/mechanics/shell.py:200`). -/
def rotate4 (C : Arr4 K d) (R : Arr2 K d) : Arr4 K d := fun i j k l =>
  ∑ p, ∑ q, ∑ r, ∑ s, R i p * R j q * R k r * R l s * C p q r s

/-- `np.einsum("ip,jq,pq->ij", R, R, a)`: `rotate_cte_3d`
(`/repo/feax/mechanics/layered_solid_element.py:219-227`); also `R @ a @ R.T`
(`/repo/feax/mechanics/shell.py:207`, `334`). -/
def rotate2 (a : Arr2 K d) (R : Arr2 K d) : Arr2 K d := fun i j => ∑ p, ∑ q, R i p * R j q * a p q

/-- `np.einsum("ijkl,kl->ij", C, e)`. -/
def ddot (C : Arr4 K d) (e : Arr2 K d) : Arr2 K d := fun i j => ∑ k, ∑ l, C i j k l * e k l

/-- `R` with cosine `c` and sine `s` (`/repo/feax/mechanics/shell.py:198-199`, `205-206`, `332-333`). -/
def planeRotation (c s : K) : Arr2 K 2 := ![![c, -s], ![s, c]]

/-- `lam * δ_ij δ_kl + mu * (δ_ik δ_jl + δ_il δ_jk)`. -/
def lame (lam mu : K) : Arr4 K d := fun i j k l =>
  lam * (eye K d i j * eye K d k l) + mu * (eye K d i k * eye K d j l + eye K d i l * eye K d j k)

/-- `isotropic_in_plane_stiffness` (`/repo/feax/mechanics/shell.py:67-86`). -/
def isotropicInPlane (E nu : K) : Arr4 K 2 := lame (E * nu / (1 - nu * nu)) (E / (2 * (1 + nu)))

/-- `C.at[i, j, k, l].set(x)`. -/
def set4 (C : Arr4 K d) (i j k l : Fin d) (x : K) : Arr4 K d :=
  fun i' j' k' l' => if i' = i ∧ j' = j ∧ k' = k ∧ l' = l then x else C i' j' k' l'

/-- `orthotropic_in_plane_stiffness` (`/repo/feax/mechanics/shell.py:89-124`). -/
def orthotropicInPlane (E1 E2 G12 nu12 : K) : Arr4 K 2 :=
  let nu21 := nu12 * E2 / E1
  let m := 1 / (1 - nu12 * nu21)
  let Q11 := m * E1
  let Q22 := m * E2
  let Q12 := m * nu21 * E1
  let Q66 := G12
  let C : Arr4 K 2 := fun _ _ _ _ => 0
  let C := set4 C 0 0 0 0 Q11
  let C := set4 C 1 1 1 1 Q22
  let C := set4 C 0 0 1 1 Q12
  let C := set4 C 1 1 0 0 Q12
  let C := set4 C 0 1 0 1 Q66
  let C := set4 C 0 1 1 0 Q66
  let C := set4 C 1 0 0 1 Q66
  set4 C 1 0 1 0 Q66

/-- `_VOIGT` (`/repo/feax/mechanics/layered_solid_element.py:57-59`). -/
def voigtSlot : Fin 3 → Fin 3 → Fin 6 := ![![0, 5, 4], ![5, 1, 3], ![4, 3, 2]]

/-- `_VOIGT_PAIRS` (`/repo/feax/mechanics/layered_solid_element.py:61`). -/
def voigtPairs : Fin 6 → Fin 3 × Fin 3 := ![(0, 0), (1, 1), (2, 2), (1, 2), (0, 2), (0, 1)]

/-- `voigt_to_tensor` (`/repo/feax/mechanics/layered_solid_element.py:64-73`). -/
def voigtToTensor (C6 : Fin 6 → Fin 6 → K) : Arr4 K 3 := fun i j k l => C6 (voigtSlot i j) (voigtSlot k l)

/-- `tensor_to_voigt` (`/repo/feax/mechanics/layered_solid_element.py:76-81`). -/
def tensorToVoigt (C : Arr4 K 3) : Fin 6 → Fin 6 → K := fun a b =>
  C (voigtPairs a).1 (voigtPairs a).2 (voigtPairs b).1 (voigtPairs b).2

/-- `isotropic_stiffness_3d` (`/repo/feax/mechanics/layered_solid_element.py:88-105`). -/
def isotropic3d (E nu : K) : Arr4 K 3 := lame (E * nu / ((1 + nu) * (1 - 2 * nu))) (E / (2 * (1 + nu)))

/-- `S` (`/repo/feax/mechanics/layered_solid_element.py:129-138`). -/
def compliance6 (E1 E2 E3 G12 G13 G23 nu12 nu13 nu23 : K) : Fin 6 → Fin 6 → K :=
  ![![1 / E1, -nu12 / E1, -nu13 / E1, 0, 0, 0],
    ![-nu12 / E1, 1 / E2, -nu23 / E2, 0, 0, 0],
    ![-nu13 / E1, -nu23 / E2, 1 / E3, 0, 0, 0],
    ![0, 0, 0, 1 / G23, 0, 0],
    ![0, 0, 0, 0, 1 / G13, 0],
    ![0, 0, 0, 0, 0, 1 / G12]]

/-- `orthotropic_stiffness_3d` (`/repo/feax/mechanics/layered_solid_element.py:108-140`). `np.linalg.inv` of a singular
matrix raises `LinAlgError`; the matrix inverse of the model is zero there, so the theorems assume that `S` is
invertible. -/
noncomputable def orthotropic3d (E1 E2 E3 G12 G13 G23 nu12 nu13 nu23 : K) : Arr4 K 3 :=
  let inv : Matrix (Fin 6) (Fin 6) K := (Matrix.of (compliance6 E1 E2 E3 G12 G13 G23 nu12 nu13 nu23))⁻¹
  voigtToTensor fun a b => inv a b

/-- `transverse_isotropic_stiffness_3d` (`/repo/feax/mechanics/layered_solid_element.py:143-163`). -/
noncomputable def transverseIsotropic3d (E1 E2 G12 nu12 nu23 : K) : Arr4 K 3 :=
  let G23 := E2 / (2 * (1 + nu23))
  orthotropic3d E1 E2 E2 G12 G12 G23 nu12 nu12 nu23

/-- `isotropic_cte_3d` (`/repo/feax/mechanics/layered_solid_element.py:174-176`). -/
def isotropicCte (alpha : K) : Arr2 K 3 := fun i j => alpha * eye K 3 i j

/-- `transverse_isotropic_cte_3d` (`/repo/feax/mechanics/layered_solid_element.py:179-187`). -/
def transverseCte (a1 a2 : K) : Arr2 K 3 := fun i j => if i = j then (![a1, a2, a2] : Fin 3 → K) i else 0

end field

noncomputable section

/-- `rotation_matrix_axis` (`/repo/feax/mechanics/layered_solid_element.py:194-208`). -/
def rotationMatrixAxis (theta : ℝ) (axis : Fin 3 → ℝ) : Arr2 ℝ 3 :=
  let n := Real.sqrt (∑ i, axis i ^ 2)
  let a := fun i => axis i / n
  let k : Arr2 ℝ 3 := ![![0, -a 2, a 1], ![a 2, 0, -a 0], ![-a 1, a 0, 0]]
  fun i j => eye ℝ 3 i j + Real.sin theta * k i j + (1 - Real.cos theta) * ∑ l, k i l * k l j

/-- `rotate_in_plane_stiffness` (`/repo/feax/mechanics/shell.py:187-200`). -/
def rotateInPlane (C : Arr4 ℝ 2) (theta : ℝ) : Arr4 ℝ 2 := rotate4 C (planeRotation (Real.cos theta) (Real.sin theta))

/-- `rotate_shear_stiffness` and `rotate_thermal_expansion` (`/repo/feax/mechanics/shell.py:203-207`, `327-334`). -/
def rotateInPlane2 (a : Arr2 ℝ 2) (theta : ℝ) : Arr2 ℝ 2 := rotate2 a (planeRotation (Real.cos theta) (Real.sin theta))

end

end Verif.Model
