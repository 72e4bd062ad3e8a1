import Verif.Model.Newton
import Verif.Model.Solve

/-!
# `feax.solvers.newton.create_callback_newton_solver` on a discretised problem

`Model/Newton.lean` has the loop over an abstract environment; here the environment is the one the code builds from the
assembled problem. Exact arithmetic: no NaN.
-/

namespace Verif.Model
open Newton

variable {K : Type*} [Field K] [LinearOrder K] {α β : Type*}

/-- `np.dot(res, res)` (`/repo/feax/solvers/newton.py:813`), the square of `np.linalg.norm(res)` (`/repo/feax/solvers/newton.py:964, 972`). -/
def ssq (r : List K) : K := (r.map (fun x => x * x)).sum

/-- Residual, norm, update and direction of `one_step` (`/repo/feax/solvers/newton.py:956-972`); `rt` is the square root of
`np.linalg.norm`; the direction is `linear_solve_fn(J, -res, x0)` with the fused operator (direct) or the matrix-free one. -/
def Discretization.newtonEnv (d : Discretization K α β) (backend : Backend K) (rt : K → K) (direct symmetric : Bool)
    (bc : DirichletBC K) : NewtonEnv K (List K) (List K) where
  resf := d.resBc bc
  norm := fun r => some (rt (ssq r))
  selfDot := fun r => some (ssq r)
  hasNaN := fun _ => false
  axpy := fun sol a du => vadd sol (du.map (a * ·))
  direction := fun sol => backend (d.forwardOp bc direct symmetric sol) (vneg (d.resBc bc sol)) (createX0 bc sol)

/-- `solver` (`/repo/feax/solvers/newton.py:1102-1112`): the condition given at construction fixes the default guess, the one
given at the call the equations. -/
def Discretization.newtonSolver (d : Discretization K α β) (backend : Backend K) (rt : K → K) (o : NewtonOpts K)
    (raiseOnFail eager direct symmetric : Bool) (bc0 : DirichletBC K) (guess : Option (List K)) (bc : Option (DirichletBC K)) :
    Except NewtonError (List K) :=
  newtonForward (d.newtonEnv backend rt direct symmetric (bc.getD bc0)) o raiseOnFail eager
    (guess.getD (zeroLikeGuess d.p.n bc0))

end Verif.Model
