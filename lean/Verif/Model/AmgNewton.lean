import Verif.Model.Newton
import Mathlib.Data.Int.Notation

/-!
# `feax.solvers.newton`: the Newton loop that rebuilds its AMG preconditioner
-/

namespace Verif.Model.Newton

variable {K : Type*} [Field K] [LinearOrder K] {V W P : Type*}

/-- What the AMG loop adds (`/repo/feax/solvers/newton.py:305-322, 344, 352`). Tangent and right-hand side are functions of the
state, so: `build sol` is the hierarchy of the tangent at `sol`, `solve M sol` the preconditioned Krylov solve of the system
at `sol`, and `linRes sol du` the relative residual of that system. -/
structure AmgEnv (K V P : Type*) where
  build : V → P
  solve : P → V → V
  linRes : V → V → Option K

/-- `_adaptive` and `_period` (`/repo/feax/solvers/newton.py:297-298`): none is the adaptive lag. `rebuild_every = 0` does not
reach this loop (`/repo/feax/solvers/newton.py:588`). -/
def amgPeriod (rebuildEvery : Option ℤ) : Option ℕ := rebuildEvery.map fun k => (max 1 k).toNat

/-- One iteration's hierarchy, direction and number of builds (`/repo/feax/solvers/newton.py:341-356`). -/
def amgDirection (A : AmgEnv K V P) (period : Option ℕ) (lagTol : K) (it : ℕ) (M : Option P) (sol : V) : P × V × ℕ :=
  let due := match period with
    | none => false
    | some k => it % k == 0
  match M, due with
  | some M, false =>
    let du := A.solve M sol
    if period.isNone && flt (some lagTol) (A.linRes sol du) then (A.build sol, A.solve (A.build sol) sol, 1)
    else (M, du, 0)
  | _, _ => (A.build sol, A.solve (A.build sol) sol, 1)

/-- What happened in an iteration that reached the linear solve. -/
structure AmgRecord (V P : Type*) where
  sol : V
  hierarchy : P
  du : V
  builds : ℕ

/-- `for it in range(max_iter)` (`/repo/feax/solvers/newton.py:332-370`): accepted state, norm, accepted steps, and the record
of the iterations. -/
def amgLoop (E : NewtonEnv K V W) (A : AmgEnv K V P) (o : NewtonOpts K) (period : Option ℕ) (lagTol : K) (init : Option K) :
    ℕ → ℕ → Option P → V × Option K × ℕ → (V × Option K × ℕ) × List (AmgRecord V P)
  | 0, _, _, s => (s, [])
  | n + 1, it, M, s =>
    if flt s.2.1 (some o.tol) then (s, [])
    else if decide (0 < it) && flt (fop (· / ·) s.2.1 (fop (· + ·) init (some o.tiny))) (some o.relTol) then (s, [])
    else
      let c := amgDirection A period lagTol it M s.1
      let r : AmgRecord V P := ⟨s.1, c.1, c.2.1, c.2.2⟩
      match backtrack E o.rho s.1 c.2.1 s.2.1 o.maxBacktracks 1 with
      | none => (s, [r])
      | some (sol', rn') =>
        let rest := amgLoop E A o period lagTol init n (it + 1) (some c.1) (sol', rn', s.2.2 + 1)
        (rest.1, r :: rest.2)

/-- `solve_fn` (`/repo/feax/solvers/newton.py:324-331, 375-380`). -/
def amgSolve (E : NewtonEnv K V W) (A : AmgEnv K V P) (o : NewtonOpts K) (rebuildEvery : Option ℤ) (lagTol : K) (sol0 : V) :
    HostResult K V × List (AmgRecord V P) :=
  let init := E.norm (E.resf sol0)
  let s := amgLoop E A o (amgPeriod rebuildEvery) lagTol init o.maxIter 0 none (sol0, init, 0)
  let converged := flt s.1.2.1 (some o.tol) ||
    flt (fop (· / ·) s.1.2.1 (fop (· + ·) init (some o.tiny))) (some o.relTol)
  (⟨s.1.1, s.1.2.1, converged, s.1.2.2⟩, s.2)

end Verif.Model.Newton
