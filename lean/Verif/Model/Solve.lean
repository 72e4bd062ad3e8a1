import Verif.Model.Matfree

/-!
# `feax.solvers`: the linear solve, its adjoint, initial increments and the convergence check

The linear-algebra backends (`spsolve`, `cholmod`, `umfpack`, `cuDSS`, `cg`, `bicgstab`, `gmres`) are
not modelled: a backend is any function from operator, right-hand side and starting point to a vector;
theorems assume what they need of it (usually: it solved the system it was given).
-/

namespace Verif.Model

variable {R : Type*} {α β : Type*}

/-- What assembly needs besides the unknowns: the problem, the per-item kernels (a function of the
item and of its local unknowns), the items, the batch size.
(`problem`, `traced_params` and `ts` of `/repo/feax/assembler.py:1362-1667`.) -/
structure Discretization (R α β : Type*) where
  p : Problem
  kv : α × List R → Local R
  kf : ℕ → β × List R → Local R
  zv : α
  zf : β
  cellsIn : List α
  facesIn : List (List β)
  batch : ℕ

/-- The operator handed to a backend: an assembled matrix or a matrix-vector product
(`/repo/feax/solvers/linear.py:393-399`). -/
inductive Operator (R : Type*)
  | csr (A : CSRMatrix R)
  | fn (f : List R → List R)

/-- `linear_solve_fn(op, b, x0)` (`/repo/feax/solvers/common.py:115-270`), abstract. -/
abbrev Backend (R : Type*) := Operator R → List R → List R → List R

/-- `zero_like_initial_guess` (`/repo/feax/utils.py:464-499`). -/
def zeroLikeGuess [Zero R] (n : ℕ) (bc : DirichletBC R) : List R :=
  scatterSet (List.replicate n 0) bc.rows bc.vals

/-- `create_x0` / `create_x0_parametric` without prolongation (`/repo/feax/solvers/common.py:23-83`). -/
def createX0 [Ring R] (bc : DirichletBC R) (sol : List R) : List R :=
  let z := List.replicate sol.length (0 : R)
  List.zipWith (· - ·) (scatterSet z bc.rows bc.vals) (scatterSet z bc.rows (gather 0 sol bc.rows))

section
variable [CommRing R]

/-- The residual at `sol` (`/repo/feax/assembler.py:1618-1667`). -/
def Discretization.residualAt (d : Discretization R α β) (sol : List R) : List R :=
  getRes d.p d.kv d.kf (d.zv, []) (d.zf, []) (cellItems d.p d.cellsIn sol)
    (faceItems d.p d.facesIn sol) d.batch

/-- The assembled tangent at `sol` (`/repo/feax/assembler.py:1517-1565`). -/
def Discretization.jacobianAt (d : Discretization R α β) (sol : List R) : CSRMatrix R :=
  getJacobian d.p d.kv d.kf (d.zv, []) (d.zf, []) (cellItems d.p d.cellsIn sol)
    (faceItems d.p d.facesIn sol) false d.batch

/-- `create_res_bc_parametric` (`/repo/feax/assembler.py:1833-1864`). -/
def Discretization.resBc (d : Discretization R α β) (bc : DirichletBC R) (sol : List R) : List R :=
  applyBcRes bc (d.residualAt sol) sol 1

/-- `create_J_bc_csr_parametric` (`/repo/feax/assembler.py:1695-1714`). -/
def Discretization.jacBcAt (d : Discretization R α β) (bc : DirichletBC R) (symmetric : Bool)
    (sol : List R) : CSRMatrix R :=
  jacBc d.p bc (d.jacobianAt sol) symmetric

/-- The matrix-free operator at `sol` (`/repo/feax/assembler.py:1747-1779`). -/
def Discretization.matfreeAt (d : Discretization R α β) (bc : DirichletBC R) (symmetric : Bool)
    (sol : List R) : List R → List R :=
  matfreeMatvec d.p d.kv d.kf (d.zv, []) (d.zf, []) (cellItems d.p d.cellsIn sol)
    (faceItems d.p d.facesIn sol) d.batch bc symmetric

/-- `create_matfree_Kt_parametric` (`/repo/feax/assembler.py:1781-1795`): the transposed,
un-eliminated tangent at `sol`. -/
def Discretization.matfreeKt (d : Discretization R α β) (sol : List R) : List R → List R :=
  residualVjp d.p d.kv d.kf (d.zv, []) (d.zf, []) (cellItems d.p d.cellsIn sol)
    (faceItems d.p d.facesIn sol) d.batch

/-- Elementwise negation. -/
def vneg (a : List R) : List R := a.map (fun x => -x)

/-- The forward operator: assembled for a direct backend, matrix-free for a Krylov backend
(`/repo/feax/solvers/linear.py:393-399`, `/repo/feax/solvers/newton.py:953`). -/
def Discretization.forwardOp (d : Discretization R α β) (bc : DirichletBC R) (direct symmetric : Bool)
    (sol : List R) : Operator R :=
  if direct then .csr (d.jacBcAt bc symmetric sol) else .fn (d.matfreeAt bc symmetric sol)

/-- `differentiable_solve` of `create_linear_solver` (`/repo/feax/solvers/linear.py:388-417`), without
`check_convergence` (modelled apart). `_reuse_factor` (378-386) computes the same formula. -/
def linearStep (d : Discretization R α β) (backend : Backend R) (direct symmetric : Bool)
    (bc : DirichletBC R) (guess : List R) : List R :=
  let res := d.resBc bc guess
  let op := d.forwardOp bc direct symmetric guess
  let x0 := createX0 bc guess
  vadd guess (backend op (vneg res) x0)

/-- `solver_wrapper` of `create_linear_solver` (`/repo/feax/solvers/linear.py:485-499`): `bc0` is the
condition given at construction, which also fixes the default initial guess. -/
def linearSolver (d : Discretization R α β) (backend : Backend R) (direct symmetric : Bool)
    (bc0 : DirichletBC R) (guess : Option (List R)) (bc : Option (DirichletBC R)) : List R :=
  let effective := bc.getD bc0
  let ig := guess.getD (zeroLikeGuess d.p.n bc0)
  linearStep d backend direct symmetric effective ig

/-- The adjoint operator (`/repo/feax/solvers/newton.py:1033-1055`, the same in
`/repo/feax/solvers/linear.py:440-457`). With `direct`, the assembled matrix transposed through the
precomputed maps unless the storage is triangular; matrix-free and symmetric: the *forward* product;
otherwise the derivative of the boundary-modified residual, transposed:
`w -> K.T (w without boundary rows) + (w on the boundary rows)`. -/
def Discretization.adjointOp (d : Discretization R α β) (bc : DirichletBC R) (direct symmetric : Bool)
    (sol : List R) : Operator R :=
  if direct then
    let J := d.jacBcAt bc symmetric sol
    match d.p.view with
    | .full => .csr (J.transposeWithMaps d.p.maps.tPerm d.p.maps.tIndptr d.p.maps.tIndices)
    | _ => .csr J
  else if symmetric then .fn (d.matfreeAt bc true sol)
  else .fn (fun w =>
    let wf := List.zipWith (fun m x => if m then 0 else x) bc.mask w
    let wb := List.zipWith (fun m x => if m then x else 0) bc.mask w
    vadd (d.matfreeKt sol wf) wb)

/-- `x0` of `linear_solve_adjoint` (`/repo/feax/solvers/linear.py:95-101`). -/
def adjointX0 (bc : DirichletBC R) (b : List R) : List R :=
  scatterSet (List.replicate b.length 0) bc.rows (gather 0 b bc.rows)

/-- The adjoint vector of the *linear* solver (`/repo/feax/solvers/linear.py:440-462`): no correction
at the constrained rows. -/
def linearAdjoint (d : Discretization R α β) (backend : Backend R) (direct symmetric : Bool)
    (bc : DirichletBC R) (sol v : List R) : List R :=
  backend (d.adjointOp bc direct symmetric sol) v (adjointX0 bc v)

/-- `_adjoint` of the Newton solver (`/repo/feax/solvers/newton.py:1033-1075`). -/
def newtonAdjoint (d : Discretization R α β) (backend : Backend R) (direct symmetric : Bool)
    (bc : DirichletBC R) (sol v : List R) : List R :=
  let adj := backend (d.adjointOp bc direct symmetric sol) v (adjointX0 bc v)
  if symmetric then
    let lamFree := scatterSet adj bc.rows (List.replicate bc.rows.length 0)
    let ktw := if direct then (d.jacobianAt sol).rmatvec lamFree else d.matfreeKt sol lamFree
    let correction := gather 0 ktw bc.rows
    scatterSet adj bc.rows (List.zipWith (· - ·) (gather 0 v bc.rows) correction)
  else adj

/-- The cotangent for `bc_vals` that `f_bwd` returns (`/repo/feax/solvers/newton.py:1090-1102`): the
negated VJP of `res[rows] = sol[rows] - vals`, i.e. `adjoint[rows]`. -/
def bcValsCotangent (bc : DirichletBC R) (adjoint : List R) : List R :=
  (gather 0 adjoint bc.rows).map (fun x => -(-x))

end

end Verif.Model
