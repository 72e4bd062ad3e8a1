import Verif.Model.TimeLoop

/-!
# `feax.solvers.time_solver`: implicit pipelines
-/

namespace Verif.Model

/-- What a solver returns: a flat vector, or an object with an attribute `dofs`. -/
inductive SolverOut (S : Type*)
  | flat (u : S)
  | solution (dofs : S)

/-- `getattr(new_state, 'dofs', new_state)` (`/repo/feax/solvers/time_solver.py:255-257`). -/
def SolverOut.carry {S : Type*} : SolverOut S → S
  | .flat u => u
  | .solution dofs => dofs

/-- An `ImplicitPipeline` after `build` (`/repo/feax/solvers/time_solver.py:153-238`): `update_vars`, the solver (called with
the parameters and the starting point; it may raise) and the flag `pseudo_time`. -/
structure ImplicitPipe (S P K : Type*) where
  pseudoTime : Bool
  updateVars : S → K → K → P
  solver : P → S → Except PyErr (SolverOut S)

/-- `ImplicitPipeline.step` (`/repo/feax/solvers/time_solver.py:240-257`). `stop_gradient` does not change the value; its
effect on gradients is in `chainVjp`. -/
def implicitStep {S P K : Type*} (pipe : ImplicitPipe S P K) (state : S) (t dt : K) : Except PyErr S :=
  (pipe.solver (pipe.updateVars state t dt) state).map SolverOut.carry

/-- One step as the reverse pass sees it: state before, time, step size, state after. -/
structure StepRecord (S K : Type*) where
  before : S
  t : K
  dt : K
  after : S

/-- A chain of `step()` calls from `s0` at the given times with the given step sizes: the last state and the steps, latest
first. -/
def stepChain {S P K : Type*} (pipe : ImplicitPipe S P K) (s0 : S) (schedule : List (K × K)) :
    Except PyErr (S × List (StepRecord S K)) :=
  schedule.foldlM (fun acc q => (implicitStep pipe acc.1 q.1 q.2).map fun u => (u, ⟨acc.1, q.1, q.2, u⟩ :: acc.2)) (s0, [])

/-- The reverse-mode rules of the two parts of a step. `solve`: the rule of the solver, which gives the cotangent of the
parameters from the cotangent of the solution, and none for the starting point (`/repo/feax/solvers/newton.py:1085-1098`).
`update`: the rule of `update_vars`, which gives the cotangents of the design and of the state. -/
structure StepVjp (S P K CS CP CD : Type*) where
  solve : P → S → CS → CP
  update : S → K → K → CP → CD × CS

/-- Reverse-mode differentiation of a chain of steps with respect to a design that enters through `update_vars`
(`/repo/feax/solvers/time_solver.py:240-257`): the cotangent of the design, and the number of calls of the solver's rule.
With `pseudo_time`, `stop_gradient` (252) cuts the chain at the state of the step before. -/
def chainVjp {S P K CS CP CD : Type*} [AddMonoid CD] (pipe : ImplicitPipe S P K) (v : StepVjp S P K CS CP CD) :
    List (StepRecord S K) → CS → CD × ℕ
  | [], _ => (0, 0)
  | r :: earlier, ct =>
    let g := v.update r.before r.t r.dt (v.solve (pipe.updateVars r.before r.t r.dt) r.after ct)
    if pipe.pseudoTime then (g.1, 1)
    else
      let rest := chainVjp pipe v earlier g.2
      (g.1 + rest.1, rest.2 + 1)

end Verif.Model
