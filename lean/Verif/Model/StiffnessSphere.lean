import Verif.Model.Voigt
import Verif.Model.Solution
import Mathlib.Analysis.SpecialFunctions.Trigonometric.Basic

/-!
# The stiffness surface (`/repo/feax/flat/utils.py:52-134`)

`jnp`'s reals are exact. `S` is the compliance `inv(C)`, as in `Verif.Model.Voigt`. Writing the file is left out: the result holds
what is handed to meshio and the statistics returned.
-/

namespace Verif.Model

/-- `np.linspace(0, stop, n)[i]` (`/repo/feax/flat/utils.py:68-69`): a single sample is the start. -/
noncomputable def linSample (stop : ℝ) (n i : ℕ) : ℝ := if n = 1 then 0 else i * (stop / (n - 1 : ℕ))

/-- One direction (`/repo/feax/flat/utils.py:73-75`). -/
noncomputable def sphereDir (theta phi : ℝ) : Fin 3 → ℝ := ![Real.sin theta * Real.cos phi, Real.sin theta * Real.sin phi, Real.cos theta]

/-- `directions` (`/repo/feax/flat/utils.py:70-78`): `meshgrid` with its default indexing gives arrays of shape `(n_phi, n_theta)`,
flattened row by row. -/
noncomputable def sphereDirs (nTheta nPhi : ℕ) : List (Fin 3 → ℝ) :=
  (List.range nPhi).flatMap fun i => (List.range nTheta).map fun j =>
    sphereDir (linSample Real.pi nTheta j) (linSample (2 * Real.pi) nPhi i)

/-- `np.max` and `np.min` of a list that is not empty. -/
noncomputable def maxOf (x : ℝ) (xs : List ℝ) : ℝ := xs.foldl max x
noncomputable def minOf (x : ℝ) (xs : List ℝ) : ℝ := xs.foldl min x

/-- `cells` (`/repo/feax/flat/utils.py:103-110`). -/
def sphereCells (nTheta nPhi : ℕ) : List (List ℕ) :=
  (List.range (nPhi - 1)).flatMap fun i => (List.range (nTheta - 1)).map fun j =>
    [i * nTheta + j, i * nTheta + (j + 1), (i + 1) * nTheta + (j + 1), (i + 1) * nTheta + j]

/-- What is written and returned. -/
structure StiffnessSphere where
  points : List (Fin 3 → ℝ)
  values : List ℝ
  cells : List (List ℕ)
  eMax : ℝ
  eMin : ℝ
  ratio : ℝ

/-- `visualize_stiffness_sphere` (`/repo/feax/flat/utils.py:52-134`); the maximum of an empty array raises. -/
noncomputable def stiffnessSphere (S : Fin 6 → Fin 6 → ℝ) (nTheta nPhi : ℕ) : Except PyErr StiffnessSphere :=
  let dirs := sphereDirs nTheta nPhi
  match dirs.map (youngsModulus S) with
  | [] => .error .valueError
  | e :: es =>
    let eMax := maxOf e es
    let eMin := minOf e es
    .ok {
      points := dirs.map fun n i => youngsModulus S n / eMax * n i
      values := e :: es
      cells := sphereCells nTheta nPhi
      eMax := eMax
      eMin := eMin
      ratio := eMax / eMin }

end Verif.Model
