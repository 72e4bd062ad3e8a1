import Mathlib.Algebra.Order.Field.Basic

/-!
# `feax.solvers.newton`: line searches and Newton loops; `check_convergence`

A floating-point number is `Option K` with `K` an ordered field and `none` = NaN: arithmetic with NaN is
NaN and every comparison with NaN is false. Simplification: rounding, overflow and infinities are not
modelled. Vectors of unknowns (`V`) and residual vectors (`W`) are abstract; the loop only uses the
operations listed in `NewtonEnv`.
-/

namespace Verif.Model.Newton

variable {K : Type*} [Field K] [LinearOrder K] {V W : Type*}

/-- `a < b` on floats. -/
def flt (a b : Option K) : Bool :=
  match a, b with
  | some x, some y => decide (x < y)
  | _, _ => false

/-- `a <= b` on floats. -/
def fle (a b : Option K) : Bool :=
  match a, b with
  | some x, some y => decide (x ≤ y)
  | _, _ => false

/-- A binary operation on floats. -/
def fop (f : K → K → K) (a b : Option K) : Option K :=
  match a, b with
  | some x, some y => some (f x y)
  | _, _ => none

/-- What the loops need: residual, norm, `np.dot(res, res)`, NaN test, `sol + alpha * du`, and the
Newton direction `linear_solve_fn(J(sol), -res, x0)` (any function: inexact solvers included). -/
structure NewtonEnv (K V W : Type*) where
  resf : V → W
  norm : W → Option K
  selfDot : W → Option K
  hasNaN : W → Bool
  axpy : V → K → V → V
  direction : V → V

/-- `NewtonOptions` (`/repo/feax/solvers/options.py`), with `tiny = 1e-30` and `eps = 1e-8` the literals of
the code. -/
structure NewtonOpts (K : Type*) where
  tol : K
  relTol : K
  maxIter : ℕ
  c1 : K
  rho : K
  maxBacktracks : ℕ
  tiny : K
  eps : K

/-- The scan carry (`/repo/feax/solvers/newton.py:817`). -/
structure LSCarry (K V : Type*) where
  alpha : K
  bestSol : V
  bestNorm : Option K
  bestAlpha : Option K
  found : Bool

/-- `scan_fn` (`/repo/feax/solvers/newton.py:816-837`). -/
def scanFn (E : NewtonEnv K V W) (o : NewtonOpts K) (sol du : V) (resNorm gradMerit : Option K)
    (c : LSCarry K V) : LSCarry K V :=
  let trialSol := E.axpy sol c.alpha du
  let trialRes := E.resf trialSol
  let trialNorm := E.norm trialRes
  let isValid := !(E.hasNaN trialRes)
  let meritDecrease := fop (· * ·) (some (1 / 2))
    (fop (· - ·) (fop (· * ·) trialNorm trialNorm) (fop (· * ·) resNorm resNorm))
  let armijoSatisfied := fle meritDecrease (fop (· * ·) (some (o.c1 * c.alpha)) gradMerit)
  let isAcceptable := isValid && armijoSatisfied
  let shouldUpdate := isAcceptable && !c.found
  { alpha := c.alpha * o.rho
    bestSol := if shouldUpdate then trialSol else c.bestSol
    bestNorm := if shouldUpdate then trialNorm else c.bestNorm
    bestAlpha := if shouldUpdate then some c.alpha else c.bestAlpha
    found := c.found || isAcceptable }

/-- Result of the line search. -/
structure LSResult (K V : Type*) where
  sol : V
  norm : Option K
  alpha : Option K
  found : Bool

/-- `line_search` of `create_armijo_line_search_scan` (`/repo/feax/solvers/newton.py:809-862`). -/
def armijo (E : NewtonEnv K V W) (o : NewtonOpts K) (sol du : V) (res : W) (resNorm : Option K) :
    LSResult K V :=
  let gradMerit := (E.selfDot res).map (fun x => -x)
  let init : LSCarry K V := ⟨1, sol, resNorm, none, false⟩
  let c := (List.range o.maxBacktracks).foldl (fun c _ => scanFn E o sol du resNorm gradMerit c) init
  let fallbackSol := E.axpy sol o.eps du
  let fallbackNorm := E.norm (E.resf fallbackSol)
  { sol := if c.found then c.bestSol else fallbackSol
    norm := if c.found then c.bestNorm else fallbackNorm
    alpha := if c.found then c.bestAlpha else some o.eps
    found := c.found }

/-- Loop state `(sol, rn, it, found)` (`/repo/feax/solvers/newton.py:1003`). -/
structure NState (K V : Type*) where
  sol : V
  rn : Option K
  it : ℕ
  found : Bool

/-- `cond` (`/repo/feax/solvers/newton.py:1000-1003`). -/
def newtonCond (o : NewtonOpts K) (res00 : Option K) (s : NState K V) : Bool :=
  decide (s.it < o.maxIter) &&
    (flt (some o.tol) s.rn &&
      flt (some o.relTol) (fop (· / ·) s.rn (fop max res00 (some o.tiny)))) &&
    s.found

/-- `one_step` + `body` (`/repo/feax/solvers/newton.py:956-969,1005-1012`). -/
def newtonBody (E : NewtonEnv K V W) (o : NewtonOpts K) (s : NState K V) : NState K V :=
  let res := E.resf s.sol
  let r := armijo E o s.sol (E.direction s.sol) res (E.norm res)
  ⟨r.sol, r.norm, s.it + 1, r.found⟩

/-- `jax.lax.while_loop(cond, body, state)` (`/repo/feax/solvers/newton.py:1015`). -/
def newtonLoop (E : NewtonEnv K V W) (o : NewtonOpts K) (res00 : Option K) (s : NState K V) :
    NState K V :=
  if h : newtonCond o res00 s = true then newtonLoop E o res00 (newtonBody E o s) else s
termination_by o.maxIter - s.it
decreasing_by
  simp only [newtonCond, Bool.and_eq_true, decide_eq_true_eq] at h
  simp only [newtonBody]
  omega

/-- The loop from its initial state (`/repo/feax/solvers/newton.py:995,1014-1015`). -/
def newtonFinal (E : NewtonEnv K V W) (o : NewtonOpts K) (sol0 : V) : NState K V :=
  newtonLoop E o (E.norm (E.resf sol0)) ⟨sol0, E.norm (E.resf sol0), 0, true⟩

/-- `NewtonLineSearchError`. -/
inductive NewtonError
  | lineSearch
deriving DecidableEq, Repr

/-- `_forward` (`/repo/feax/solvers/newton.py:994-1027`): `raiseOnFail` the option, `eager` whether the
final flag is concrete. -/
def newtonForward (E : NewtonEnv K V W) (o : NewtonOpts K) (raiseOnFail eager : Bool) (sol0 : V) :
    Except NewtonError V :=
  let s := newtonFinal E o sol0
  if raiseOnFail && eager && !s.found then .error .lineSearch else .ok s.sol

/-! ## Host-driven loops -/

/-- The backtracking loop of the host-driven solvers (`/repo/feax/solvers/newton.py:505-513,733-742`,
`352-360`): first trial whose norm is below the current one. -/
def backtrack (E : NewtonEnv K V W) (rho : K) (sol du : V) (rn : Option K) : ℕ → K → Option (V × Option K)
  | 0, _ => none
  | k + 1, alpha =>
    let trial := E.axpy sol alpha du
    let tn := E.norm (E.resf trial)
    if flt tn rn then some (trial, tn) else backtrack E rho sol du rn k (alpha * rho)

/-- The `for it in range(max_iter)` loop (`/repo/feax/solvers/newton.py:489-520` assembled extra term,
`684-751` hybrid, `331-369` AMG). `dir it sol` is the linear solve of iteration `it` (any function, so a
preconditioner kept from earlier iterations as in the AMG loop is covered). `stagnated` is the hybrid loop's test `norm(du) < 1e-30` (724-731),
constantly false in the other two. The state is the accepted `(sol, norm)` and the number of accepted
steps. -/
def hostLoop (E : NewtonEnv K V W) (o : NewtonOpts K) (dir : ℕ → V → V) (stagnated : V → Bool) (init : Option K) :
    ℕ → ℕ → V × Option K × ℕ → V × Option K × ℕ
  | 0, _, s => s
  | n + 1, it, s =>
    if flt s.2.1 (some o.tol) then s
    else if decide (0 < it) && flt (fop (· / ·) s.2.1 (fop (· + ·) init (some o.tiny))) (some o.relTol) then s
    else
      let du := dir it s.1
      if stagnated du then s
      else match backtrack E o.rho s.1 du s.2.1 o.maxBacktracks 1 with
        | none => s
        | some (sol', rn') => hostLoop E o dir stagnated init n (it + 1) (sol', rn', s.2.2 + 1)

/-- Outcome of a host-driven solve. -/
structure HostResult (K V : Type*) where
  sol : V
  norm : Option K
  converged : Bool
  steps : ℕ

/-- Errors of the host-driven solvers: `it` is read after a loop that never ran. -/
inductive HostError
  | unboundLocal
deriving DecidableEq, Repr

/-- `assembled_solve_fn` / `hybrid_solve_fn` (`/repo/feax/solvers/newton.py:476-529,672-778`): the loop,
the `converged` flag, and the warning that reads `it` when not converged (unbound if `max_iter = 0`).
The AMG solve (`324-379`) has no such warning: `warns = false`. -/
def hostSolve (E : NewtonEnv K V W) (o : NewtonOpts K) (dir : ℕ → V → V) (warns : Bool) (stagnated : V → Bool) (sol0 : V) :
    Except HostError (HostResult K V) :=
  let init := E.norm (E.resf sol0)
  let s := hostLoop E o dir stagnated init o.maxIter 0 (sol0, init, 0)
  let converged := flt s.2.1 (some o.tol) ||
    flt (fop (· / ·) s.2.1 (fop (· + ·) init (some o.tiny))) (some o.relTol)
  if warns && !converged && o.maxIter == 0 then .error .unboundLocal
  else .ok ⟨s.1, s.2.1, converged, s.2.2⟩

/-! ## Convergence check -/

/-- `check_convergence` (`/repo/feax/solvers/common.py:376-395`): `act` is the operator product for the
stored view, `tiny = 1e-12`, `thr` the threshold (default `0.1`). -/
def checkConvergence (act : List (Option K) → List (Option K)) (norm : List (Option K) → Option K)
    (tiny thr : K) (x b : List (Option K)) : List (Option K) :=
  let residual := List.zipWith (fop (· - ·)) (act x) b
  let rel := fop (· / ·) (norm residual) (fop (· + ·) (norm b) (some tiny))
  if flt rel (some thr) then x else x.map (fun _ => none)

end Verif.Model.Newton
