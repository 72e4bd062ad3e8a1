import Verif.Model.Solve
import Verif.Model.Mesh
import Verif.Model.Options

/-!
# What `create_solver` finds out by probing: dead surface loads and the property of the matrix
-/

namespace Verif.Model

section
variable {K : Type} [Field K] [DecidableEq K] {α β : Type*}

/-- The two displacement patterns (`/repo/feax/assembler.py:1347`). -/
def surfaceProbes (n : ℕ) : List (List K) := [linspace (13 / 100) 1 n, linspace (-9 / 10) (41 / 100) n]

/-- `detect_zero_surface_jacobian` (`/repo/feax/assembler.py:1321-1359`); `d` holds the sample parameters. `max` over an empty
array raises, which the function turns into `False`. -/
def detectZeroSurface (d : Discretization K α β) : Bool :=
  if d.facesIn.isEmpty then false
  else
    (surfaceProbes d.p.n).all fun sol : List K =>
      (computeFace d.kf (d.zf, []) (faceItems d.p d.facesIn sol) d.batch).all fun fs : List (Local K) =>
        let j := (fs.map (·.jac)).flatten
        !j.isEmpty && j.all fun y : K => decide (y = 0)

/-- The tangent that the direct linear path assembles with the flag cached on the problem
(`/repo/feax/solvers/linear.py:313-322`, `/repo/feax/assembler.py:1394-1402`). -/
def flaggedJacobian (flag : Bool) (d : Discretization K α β) (sol : List K) : CSRMatrix K :=
  getJacobian d.p d.kv d.kf (d.zv, []) (d.zf, []) (cellItems d.p d.cellsIn sol) (faceItems d.p d.facesIn sol) flag d.batch

end

section
variable {K : Type} [Field K] [LinearOrder K]

/-- The symmetry test of `detect_matrix_property` (`/repo/feax/solvers/options.py:213-240`): `x` is the fixed random vector,
`norm` the Euclidean norm, `eps` the `1e-30` that guards the division. Triangular storage counts as symmetric. -/
def probeSymmetric (norm : List K → K) (x : List K) (tol eps : K) (A : CSRMatrix K) : MatrixView → Bool
  | .full => decide (norm (List.zipWith (· - ·) (A.matvec x) (A.rmatvec x)) / (norm (A.matvec x) + eps) < tol)
  | _ => true

/-- `detect_matrix_property` (`/repo/feax/solvers/options.py:188-259`). -/
def detectProperty (norm : List K → K) (x : List K) (tol eps : K) (A : CSRMatrix K) (view : MatrixView) : MatProp :=
  if !probeSymmetric norm x tol eps A view then .general
  else if A.diagonal.all fun y : K => decide (0 < y) then .spd
  else .symmetric

end

end Verif.Model
