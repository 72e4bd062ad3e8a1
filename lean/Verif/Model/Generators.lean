import Mathlib.Analysis.SpecialFunctions.Trigonometric.Inverse
import Mathlib.Algebra.Order.Floor.Semiring
import Mathlib.Data.Fin.VecNotation

/-!
# `feax.mesh`: what `cylinder_mesh` and `box_mesh` ask Gmsh for
-/

namespace Verif.Model

/-- Dot product of two vectors in space. -/
def gdot3 (x y : Fin 3 → ℝ) : ℝ := x 0 * y 0 + x 1 * y 1 + x 2 * y 2

/-- `onp.cross`. -/
def gcross3 (x y : Fin 3 → ℝ) : Fin 3 → ℝ := ![x 1 * y 2 - x 2 * y 1, x 2 * y 0 - x 0 * y 2, x 0 * y 1 - x 1 * y 0]

/-- `onp.linalg.norm`. -/
noncomputable def norm3 (x : Fin 3 → ℝ) : ℝ := Real.sqrt (gdot3 x x)

/-- The rotation about an axis through the origin that `gmsh.model.occ.rotate` performs (Rodrigues' formula). -/
noncomputable def rotate3 (k : Fin 3 → ℝ) (angle : ℝ) (x : Fin 3 → ℝ) : Fin 3 → ℝ := fun i =>
  Real.cos angle * x i + Real.sin angle * gcross3 k x i + (1 - Real.cos angle) * gdot3 k x * k i

/-- `[0, 0, 1]`. -/
def ez : Fin 3 → ℝ := ![0, 0, 1]

/-- `onp.allclose(axis_norm, [0, 0, 1])` with NumPy's tolerances (`/repo/feax/mesh.py:765`). -/
def closeToEz (a : Fin 3 → ℝ) : Prop := ∀ i, |a i - ez i| ≤ 1 / 10 ^ 8 + 1 / 10 ^ 5 * |ez i|

open Classical in
/-- How `cylinder_mesh` turns the upright cylinder about its base point (`/repo/feax/mesh.py:753-773`); points relative to
`center`. -/
noncomputable def cylinderTurn (axis : Fin 3 → ℝ) (x : Fin 3 → ℝ) : Fin 3 → ℝ :=
  let a : Fin 3 → ℝ := fun i => axis i / norm3 axis
  if closeToEz a then x
  else
    let r := gcross3 ez a
    if norm3 r > 1 / 10 ^ 10 then rotate3 (fun i => r i / norm3 r) (Real.arccos (gdot3 ez a)) x
    else x

/-- The points of the cylinder that is meshed, relative to `center`: `addCylinder(x0, y0, z0, 0, 0, height, radius)`
(`/repo/feax/mesh.py:762`), turned. -/
noncomputable def cylinderSolid (radius height : ℝ) (axis : Fin 3 → ℝ) : Set (Fin 3 → ℝ) :=
  {y | ∃ x, (0 ≤ x 2 ∧ x 2 ≤ height ∧ x 0 ^ 2 + x 1 ^ 2 ≤ radius ^ 2) ∧ y = cylinderTurn axis x}

section
variable {K : Type*} [Field K] [LinearOrder K] [FloorSemiring K]

/-- Points on an edge of length `l` (`/repo/feax/mesh.py:363-365`). -/
def boxPoints (l h : K) : ℕ := max 2 (⌊l / h⌋₊ + 1)

/-- Points put on an edge with the given bounding box extents (`/repo/feax/mesh.py:368-384`). -/
def edgePoints (n : Fin 3 → ℕ) (d : Fin 3 → K) : ℕ :=
  if d 0 > d 1 ∧ d 0 > d 2 then n 0 else if d 1 > d 0 ∧ d 1 > d 2 then n 1 else n 2

end
end Verif.Model
