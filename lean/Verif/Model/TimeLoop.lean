import Verif.Model.Solution
import Mathlib.Algebra.Order.Field.Basic
import Mathlib.Algebra.Module.Defs

/-!
# `feax.solvers.time_solver`: the time loop and the explicit integrators

Times are exact numbers of an ordered field (simplification: no rounding). The pipeline's methods are
arbitrary functions; `step` may raise. Observable effects are recorded as lists: arguments of
`pipeline.step`, of `pipeline.monitor` / history rows, CSV rows, `pipeline.save` calls, callback calls.
Printing is not modelled, except that a print period of zero raises.
-/

namespace Verif.Model

/-- `TimeConfig` (`/repo/feax/solvers/time_solver.py:359-379`). -/
structure TimeConfig (K : Type*) where
  dt : K
  tEnd : K
  tStart : K
  saveEvery : ℕ
  printEvery : ℕ

/-- `AdaptiveDtConfig` (`/repo/feax/solvers/time_solver.py:383-401`). -/
structure AdaptiveDt (K : Type*) where
  dtMin : K
  dtMax : K
  growth : K

/-- A pipeline after `build` (`/repo/feax/solvers/time_solver.py:55-146`), with the optional
`adapt_dt` method (570-571). -/
structure TimePipeline (S K : Type*) where
  init : S
  step : S → K → K → Except PyErr S
  adaptDt : Option (S → ℕ → K → K → K)

/-- A row: step number, time, state. -/
abbrev Row (S K : Type*) := ℕ × K × S

/-- Everything `run` is called with (`/repo/feax/solvers/time_solver.py:448-455`). `callbacks` are the
periods of the callbacks. -/
structure TimeJob (S K : Type*) where
  cfg : TimeConfig K
  pipe : TimePipeline S K
  adaptive : Option (AdaptiveDt K)
  output : Bool
  callbacks : List ℕ

/-- Local variables of the loop and the effects so far. -/
structure LoopState (S K : Type*) where
  state : S
  t : K
  dt : K
  step : ℕ
  /-- `(t, dt_eff)` of each call of `pipeline.step` that returned -/
  calls : List (K × K)
  /-- `history`, with the state passed to `monitor` -/
  hist : List (Row S K)
  csv : List (Row S K)
  saves : List (Row S K)
  /-- callback index and its arguments -/
  fired : List (ℕ × Row S K)

section
variable {S K : Type*} [Field K] [LinearOrder K]

/-- The adapted step size (`/repo/feax/solvers/time_solver.py:570-575`). -/
def nextDt (job : TimeJob S K) (s : S) (step : ℕ) (t dt : K) : K :=
  match job.adaptive, job.pipe.adaptDt with
  | some a, some f => min (max a.dtMin (min a.dtMax (f s step t dt))) (dt * a.growth)
  | _, _ => dt

/-- The callbacks of one step, in order (`/repo/feax/solvers/time_solver.py:565-568`); a period of zero
raises `ZeroDivisionError` after the earlier callbacks have fired. -/
def fireCallbacks (row : Row S K) : ℕ → List ℕ → List (ℕ × Row S K) → Except (List (ℕ × Row S K)) (List (ℕ × Row S K))
  | _, [], acc => .ok acc
  | i, every :: rest, acc =>
    if every = 0 then .error acc
    else if row.1 % every = 0 then fireCallbacks row (i + 1) rest (acc ++ [(i, row)])
    else fireCallbacks row (i + 1) rest acc

/-- One pass of the loop body (`/repo/feax/solvers/time_solver.py:540-575`). An exception carries the
effects that had happened. -/
def loopBody (job : TimeJob S K) (ls : LoopState S K) : Except (PyErr × LoopState S K) (LoopState S K) :=
  let dtEff := min ls.dt (job.cfg.tEnd - ls.t)
  let step := ls.step + 1
  match job.pipe.step ls.state ls.t dtEff with
  | .error e => .error (e, { ls with step := step })
  | .ok s =>
    let t := ls.t + dtEff
    let row : Row S K := (step, t, s)
    let ls1 := { ls with state := s, t := t, step := step, calls := ls.calls ++ [(ls.t, dtEff)],
                         hist := ls.hist ++ [row] }
    if job.cfg.printEvery = 0 then .error (.zeroDivision, ls1)
    else
      let ls2 := { ls1 with csv := if job.output then ls.csv ++ [row] else ls.csv }
      if job.output && job.cfg.saveEvery == 0 then .error (.zeroDivision, ls2)
      else
        let ls3 := { ls2 with saves := if job.output && step % job.cfg.saveEvery == 0 then ls.saves ++ [row]
                                       else ls.saves }
        match fireCallbacks row 0 job.callbacks ls.fired with
        | .error fired => .error (.zeroDivision, { ls3 with fired := fired })
        | .ok fired => .ok { ls3 with fired := fired, dt := nextDt job s step t ls.dt }

/-- The loop (`/repo/feax/solvers/time_solver.py:540-575`), at most `fuel` passes; `none` when it has not
ended by then. -/
def timeLoop (job : TimeJob S K) : ℕ → LoopState S K → Option (Except (PyErr × LoopState S K) (LoopState S K))
  | fuel, ls =>
    if ls.t < job.cfg.tEnd - 1 / 10 ^ 14 * job.cfg.dt then
      match fuel with
      | 0 => none
      | fuel + 1 =>
        match loopBody job ls with
        | .error e => some (.error e)
        | .ok ls' => timeLoop job fuel ls'
    else some (.ok ls)

/-- State before the loop (`/repo/feax/solvers/time_solver.py:486-538`): the initial condition is recorded
(517) and, with an output directory, saved (532-533). -/
def startState (job : TimeJob S K) : LoopState S K :=
  let row : Row S K := (0, job.cfg.tStart, job.pipe.init)
  { state := job.pipe.init, t := job.cfg.tStart, dt := job.cfg.dt, step := 0, calls := [],
    hist := [row], csv := [], saves := if job.output then [row] else [], fired := [] }

/-- `run` (`/repo/feax/solvers/time_solver.py:448-596`). The estimate of the number of steps (520) divides
by `dt`. The final snapshot (578-579). -/
def timeRun (job : TimeJob S K) (fuel : ℕ) : Option (Except (PyErr × LoopState S K) (LoopState S K)) :=
  if job.cfg.dt = 0 then some (.error (.zeroDivision, { startState job with saves := [] }))
  else match timeLoop job fuel (startState job) with
  | none => none
  | some (.error e) => some (.error e)
  | some (.ok ls) =>
    if job.output && job.cfg.saveEvery == 0 then some (.error (.zeroDivision, ls))
    else if job.output && ls.step % job.cfg.saveEvery != 0 then
      some (.ok { ls with saves := ls.saves ++ [(ls.step, ls.t, ls.state)] })
    else some (.ok ls)

end

/-! ## Explicit integrators -/

/-- The value of `scheme`; any other string raises. -/
inductive Scheme where
  | euler | rk2 | rk4 | other (name : String)
deriving DecidableEq

section
variable {K V : Type*} [Field K] [AddCommGroup V] [Module K V]

/-- `_axpy(a, x, y) = y + a * x` (`/repo/feax/solvers/time_solver.py:324-326`); a pytree of arrays is a
vector. -/
def axpy (a : K) (x y : V) : V := y + a • x

/-- `ExplicitPipeline.step` (`/repo/feax/solvers/time_solver.py:320-351`). -/
def explicitStep (scheme : Scheme) (f : V → K → V) (y : V) (t dt : K) : Except PyErr V :=
  match scheme with
  | .euler =>
    let k1 := f y t
    .ok (axpy dt k1 y)
  | .rk2 =>
    let k1 := f y t
    let mid := axpy (1 / 2 * dt) k1 y
    let k2 := f mid (t + 1 / 2 * dt)
    .ok (axpy dt k2 y)
  | .rk4 =>
    let k1 := f y t
    let k2 := f (axpy (1 / 2 * dt) k1 y) (t + 1 / 2 * dt)
    let k3 := f (axpy (1 / 2 * dt) k2 y) (t + 1 / 2 * dt)
    let k4 := f (axpy dt k3 y) (t + dt)
    let s := k1 + (2 : K) • k2 + (2 : K) • k3 + k4
    .ok (axpy (dt / 6) s y)
  | .other _ => .error .valueError

end

end Verif.Model
