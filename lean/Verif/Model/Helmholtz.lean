import Verif.Model.Vars
import Verif.Model.Kernels
import Verif.Model.Elements
import Verif.Model.Periodic

/-!
# The Helmholtz filter (`/repo/feax/gene/filters.py:16-180`)

A scalar problem on the mesh, assembled and solved with the machinery of the other modules.
-/

namespace Verif.Model

/-- Element type and dimension detected from the numbers of columns of `mesh.points` and `mesh.cells`
(`/repo/feax/gene/filters.py:83-91`). -/
def helmholtzElement (pointColumns cellColumns : ℕ) : EleType × ℕ :=
  if pointColumns = 2 then (if cellColumns = 4 then .QUAD4 else .TRI3, 2)
  else (if cellColumns = 8 then .HEX8 else .TET4, 3)

/-- What the filter uses of the mesh and its scalar finite element: nodes, connectivity, shape function values at the
quadrature points, gradients and weights at every quadrature point of every cell (`/repo/feax/fe.py:75-128`). -/
structure FilterMesh (K : Type) where
  numNodes : ℕ
  nn : ℕ
  dim : ℕ
  cells : List (List ℕ)
  shapeVals : List (List K)
  grads : ℕ → ℕ → List (List K)
  jxw : ℕ → ℕ → K

section
variable {K : Type} [Field K]

/-- `mass_map` (`/repo/feax/gene/filters.py:29-32`). -/
def helmholtzMass (rho _x iv : List K) : List K := rho.map (· - iv.getD 0 0)

/-- `tensor_map` (`/repo/feax/gene/filters.py:24-27`). -/
def helmholtzTensor (grad : List (List K)) (iv : List K) : List (List K) := grad.map (·.map (iv.getD 1 0 * ·))

/-- The hooks of `HelmholtzFilterProblem` (`/repo/feax/gene/filters.py:16-32`). -/
def helmholtzPhysics : Physics K := { mass := some helmholtzMass, tensor := some helmholtzTensor }

/-- The scalar problem (`/repo/feax/gene/filters.py:94-100`): one variable with one component, no boundary. -/
def FilterMesh.problem (s : FilterMesh K) : Problem := ⟨[⟨1, s.numNodes, s.nn, s.cells⟩], s.cells.length, [], .full⟩

/-- The same problem as the classification of volume variables sees it. -/
def FilterMesh.varProblem (s : FilterMesh K) : VarProblem K :=
  ⟨[⟨s.numNodes, s.shapeVals, s.cells, s.nn⟩], s.cells.length, s.shapeVals.length⟩

/-- A parameter at a quadrature point. Simplification: when it is not a scalar, `r_squared * rho_grad`
(`/repo/feax/gene/filters.py:24-27`) multiplies arrays of shapes `(num_nodes_of_cell,)` and `(1, dim)`, which do not broadcast
(3 or 4 nodes against 2 columns, 4 or 8 against 3), and JAX raises `TypeError`. -/
def asScalar (v : NdArr K) : Except PyErr K :=
  match v with
  | .sc x => .ok x
  | _ => .error .typeError

/-- The data of one quadrature point, with the parameters `rho_source` and `np.full(num_nodes, r_squared)` interpolated
there (`/repo/feax/gene/filters.py:138-143`). The position is not used by the filter. -/
def FilterMesh.point (s : FilterMesh K) (r2 : K) (rho : List K) (c q : ℕ) : Except PyErr (QPoint K) := do
  let a ← assemblyValue s.varProblem 0 (.vec rho) c q
  let a ← asScalar a
  let b ← assemblyValue s.varProblem 0 (.vec (List.replicate s.numNodes r2)) c q
  let b ← asScalar b
  return ⟨[], [a, b], [⟨s.shapeVals.getD q [], s.grads c q, s.jxw c q⟩]⟩

/-- The unit vector `e_b`. -/
def unitVector (n b : ℕ) : List K := (List.replicate n 0).set b 1

/-- Local matrix of a volume kernel, `jax.jacfwd` (`/repo/feax/assembler.py:808-818`, `956`). Simplification: column `b` is the
difference `k(e_b) - k(0)`, which is the derivative because the kernel of the filter is affine. -/
def affineJac (n : ℕ) (k : List K → List K) : List K :=
  (List.range (n * n)).map fun i => (k (unitVector n (i % n))).getD (i / n) 0 - (k (List.replicate n 0)).getD (i / n) 0

/-- The filter problem with its parameters, ready for the solver (`/repo/feax/gene/filters.py:94-143`). -/
def helmholtzDisc (s : FilterMesh K) (r2 : K) (rho : List K) :
    Except PyErr (Discretization K (List (QPoint K)) (List (QPoint K))) := do
  let cells ← (List.range s.cells.length).mapM fun c => (List.range s.shapeVals.length).mapM fun q => s.point r2 rho c q
  match createVolumeKernel s.problem.vars s.dim helmholtzPhysics with
  | .error _ => throw .valueError
  | .ok k => return {
      p := s.problem
      kv := fun a => ⟨(k a.1 a.2).getD [], affineJac s.problem.ndof fun u => (k a.1 u).getD []⟩
      kf := fun _ _ => ⟨List.replicate s.problem.ndof 0, List.replicate (s.problem.ndof * s.problem.ndof) 0⟩
      zv := []
      zf := []
      cellsIn := cells
      facesIn := []
      batch := 1 }

/-- `filter_fn` (`/repo/feax/gene/filters.py:102-147`): no boundary conditions, `r_squared = radius ** 2`, zero initial guess,
the linear solver or, with a prolongation matrix, the reduced solver. The linear algebra is a parameter. -/
def helmholtzFilter [DecidableEq K] (s : FilterMesh K) (radius : K) (P : Option (Coo K)) (backend : Backend K)
    (direct symmetric : Bool) (rho : List K) : Except PyErr (List K) := do
  let d ← helmholtzDisc s (radius ^ 2) rho
  let bc ← createBC (Pt := Unit) s.problem.vars [] []
  let guess := List.replicate s.problem.n 0
  match P with
  | none => return linearSolver d backend direct symmetric bc (some guess) none
  | some P => reducedSolver d backend P bc (some guess) none

end

end Verif.Model
