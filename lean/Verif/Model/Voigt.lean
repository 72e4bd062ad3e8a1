import Mathlib.Algebra.Field.Basic
import Mathlib.Algebra.BigOperators.Fin

/-!
# Directional Young's modulus (`/repo/feax/flat/utils.py`)

Numbers are elements of a field. `np.linalg.inv(C)` is an argument of the model; the theorems assume that it is an inverse.
-/

namespace Verif.Model

section
variable {K : Type} [Field K]

/-- `voigt_map` (`/repo/feax/flat/utils.py:26`). -/
def voigtMap : Fin 6 → Fin 3 × Fin 3 := ![(0, 0), (1, 1), (2, 2), (1, 2), (0, 2), (0, 1)]

/-- A 3×3×3×3 array. -/
abbrev Tensor4 (K : Type) := Fin 3 → Fin 3 → Fin 3 → Fin 3 → K

/-- `S_tensor.at[I, J, K, L].set(x)`. -/
def setTensor (t : Tensor4 K) (i j k l : Fin 3) (x : K) : Tensor4 K :=
  fun i' j' k' l' => if i' = i ∧ j' = j ∧ k' = k ∧ l' = l then x else t i' j' k' l'

/-- The body of the double loop (`/repo/feax/flat/utils.py:28-44`). -/
def voigtStep (S : Fin 6 → Fin 6 → K) (t : Tensor4 K) (ij : Fin 6 × Fin 6) : Tensor4 K :=
  let I := (voigtMap ij.1).1
  let J := (voigtMap ij.1).2
  let L := (voigtMap ij.2).1
  let M := (voigtMap ij.2).2
  let f1 : K := if 2 < ij.1 then 2 else 1
  let factor : K := if 2 < ij.2 then f1 * 2 else f1
  let x := S ij.1 ij.2 / factor
  let t := setTensor t I J L M x
  let t := if I ≠ J then setTensor t J I L M x else t
  let t := if L ≠ M then setTensor t I J M L x else t
  if I ≠ J ∧ L ≠ M then setTensor t J I M L x else t

/-- The compliance tensor (`/repo/feax/flat/utils.py:24-44`). -/
def complianceTensor (S : Fin 6 → Fin 6 → K) : Tensor4 K :=
  ((List.finRange 6).flatMap fun i => (List.finRange 6).map fun j => (i, j)).foldl (voigtStep S) fun _ _ _ _ => 0

/-- `compute_directional_youngs_modulus` with `S = inv(C)` (`/repo/feax/flat/utils.py:9-50`). -/
def youngsModulus (S : Fin 6 → Fin 6 → K) (n : Fin 3 → K) : K :=
  let t := complianceTensor S
  let sn := fun i k => ∑ j, ∑ l, t i j k l * n j * n l
  1 / ∑ i, ∑ j, n i * sn i j * n j

end
end Verif.Model
