import Verif.Model.Solve
import Verif.Model.AmgNewton

/-!
# `feax.solvers.newton`, `feax.solvers.amg`: what the rebuilding AMG solver hands to the Krylov method

The loop is `Model/AmgNewton.lean`; here its operators are those of a discretised problem, and the reverse rule is added. PyAMG
and the Krylov methods are parameters.
-/

namespace Verif.Model

section ops
variable {R : Type} [CommRing R] {α β : Type*}

/-- What a hierarchy is built from: an assembled matrix or the transpose of one. -/
structure AmgSample (R : Type) where
  A : CSRMatrix R
  transposed : Bool

/-- The entries of the SciPy matrix of `_to_scipy_csr` (`/repo/feax/solvers/amg.py:75-88`). -/
def AmgSample.entry (s : AmgSample R) (i j : ℕ) : R := if s.transposed then s.A.todense j i else s.A.todense i j

/-- `A @ v` (`/repo/feax/solvers/amg.py:218`, `/repo/feax/solvers/newton.py:320`); `CSRTranspose` multiplies with `rmatvec`. -/
def AmgSample.apply (s : AmgSample R) (v : List R) : List R := if s.transposed then s.A.rmatvec v else s.A.matvec v

/-- `build_amg_preconditioner(problem, bc, sample, options)` and the Krylov method `krylov(A @ ., b, x0=x0, M=M)`. -/
structure AmgTools (R P : Type) where
  build : AmgSample R → P
  krylov : P → (List R → List R) → List R → List R → List R

/-- The tangent of an iteration, `J_jit(sol, ...)` (`/repo/feax/solvers/newton.py:337`). -/
def Discretization.amgTangent (d : Discretization R α β) (bc : DirichletBC R) (symmetric : Bool) (sol : List R) :
    AmgSample R := ⟨d.jacBcAt bc symmetric sol, false⟩

/-- `_make_solve(M)` applied to tangent and negated residual (`/repo/feax/solvers/newton.py:308-322, 338, 346`). -/
def Discretization.amgStep {P : Type} (d : Discretization R α β) (T : AmgTools R P) (bc : DirichletBC R) (symmetric : Bool)
    (M : P) (sol : List R) : List R :=
  let b := vneg (d.resBc bc sol)
  T.krylov M (d.amgTangent bc symmetric sol).apply b (List.replicate b.length 0)

/-- `J_adjoint` of the reverse rule (`/repo/feax/solvers/newton.py:172-183`): not transposed for triangular storage. -/
def Discretization.amgAdjointTangent (d : Discretization R α β) (bc : DirichletBC R) (symmetric : Bool) (sol : List R) :
    AmgSample R :=
  match d.p.view with
  | .full => ⟨d.jacBcAt bc symmetric sol, true⟩
  | _ => ⟨d.jacBcAt bc symmetric sol, false⟩

/-- The adjoint vector of `f_bwd` for the rebuilding solver (`/repo/feax/solvers/newton.py:183-216`,
`/repo/feax/solvers/amg.py:212-219`): a hierarchy of the adjoint operator itself, then the correction at constrained
unknowns. -/
def Discretization.amgAdjoint {P : Type} (d : Discretization R α β) (T : AmgTools R P) (bc : DirichletBC R) (symmetric : Bool)
    (sol v : List R) : List R :=
  let A := d.amgAdjointTangent bc symmetric sol
  let adj := T.krylov (T.build A) A.apply v (adjointX0 bc v)
  if symmetric then
    let lamFree := scatterSet adj bc.rows (List.replicate bc.rows.length 0)
    let correction := gather 0 ((d.jacobianAt sol).rmatvec lamFree) bc.rows
    scatterSet adj bc.rows (List.zipWith (· - ·) (gather 0 v bc.rows) correction)
  else adj

end ops

section loop
variable {K : Type} [Field K] [LinearOrder K] {α β : Type*} {P : Type}

open Newton

/-- The residual, norm and update of the loop (`/repo/feax/solvers/newton.py:304, 326-327, 359-361`). The fields the loop does
not use are constant. -/
def Discretization.amgNewtonEnv (d : Discretization K α β) (norm : List K → Option K) (bc : DirichletBC K) :
    NewtonEnv K (List K) (List K) where
  resf := d.resBc bc
  norm := norm
  selfDot := fun _ => none
  hasNaN := fun _ => false
  axpy := fun sol a du => vadd sol (du.map (a * ·))
  direction := id

/-- The tangents, solves and linear residuals of the loop (`/repo/feax/solvers/newton.py:337-352`). -/
def Discretization.amgEnv (d : Discretization K α β) (T : AmgTools K P) (norm : List K → Option K) (tiny : K)
    (bc : DirichletBC K) (symmetric : Bool) : AmgEnv K (List K) P where
  build := fun sol => T.build (d.amgTangent bc symmetric sol)
  solve := fun M sol => d.amgStep T bc symmetric M sol
  linRes := fun sol du =>
    let b := vneg (d.resBc bc sol)
    fop (· / ·) (norm (List.zipWith (· - ·) ((d.amgTangent bc symmetric sol).apply du) b)) (fop (· + ·) (norm b) (some tiny))

/-- `solve_fn` of the rebuilding solver on a discretised problem (`/repo/feax/solvers/newton.py:324-380`). -/
def Discretization.amgNewton (d : Discretization K α β) (T : AmgTools K P) (norm : List K → Option K) (o : NewtonOpts K)
    (rebuildEvery : Option ℤ) (lagTol : K) (bc : DirichletBC K) (symmetric : Bool) (sol0 : List K) :
    HostResult K (List K) × List (AmgRecord (List K) P) :=
  amgSolve (d.amgNewtonEnv norm bc) (d.amgEnv T norm o.tiny bc symmetric) o rebuildEvery lagTol sol0

end loop

end Verif.Model
