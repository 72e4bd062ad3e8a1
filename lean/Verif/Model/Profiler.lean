import Verif.Model.Solve

/-!
# `feax.profiler`: primitive counts, timed runs, memory snapshots, the step-by-step Newton loop
-/

namespace Verif.Model

/-- `counts[name] = counts.get(name, 0) + 1` on a dictionary kept in insertion order. -/
def dictIncr (name : String) : List (String × ℕ) → List (String × ℕ)
  | [] => [(name, 1)]
  | (k, v) :: t => if k = name then (k, v + 1) :: t else (k, v) :: dictIncr name t

/-- An equation of a jaxpr: its primitive, and the equations of the jaxprs it carries (loop bodies, branches, jitted
functions). -/
inductive Eqn where
  | mk (name : String) (inner : List Eqn)

/-- The primitive's name. -/
def Eqn.name : Eqn → String
  | .mk n _ => n

/-- `_count_primitives` (`/repo/feax/profiler.py:104-109`). -/
def countPrimitives (eqns : List Eqn) : List (String × ℕ) :=
  eqns.foldl (fun counts e => dictIncr e.name counts) []

/-- `counts.get(name, 0)`. -/
def dictGet (name : String) (d : List (String × ℕ)) : ℕ :=
  ((d.find? fun kv => kv.1 = name).map (·.2)).getD 0

/-- `time_fn` (`/repo/feax/profiler.py:218-265`) on a function whose `k`-th call returns `f k` and takes `clock k`; the
result is absent when nothing was called (Python's `UnboundLocalError`). Labels are given by the run number, absent for
the plain label. -/
def timeFn {γ T : Type} (f : ℕ → γ) (clock : ℕ → T) (nRuns warmup : ℕ) : Option (γ × List (Option ℕ × T)) :=
  if warmup + nRuns = 0 then none
  else some (f (warmup + nRuns - 1),
    (List.range nRuns).map fun i => (if nRuns = 1 then none else some i, clock (warmup + i)))

/-- A live array: the platform and the device that holds it, and its size. -/
structure LiveArray where
  platform : String
  device : ℕ
  nbytes : ℕ

/-- A device. -/
structure Device where
  platform : String
  id : ℕ

/-- `memory_snapshot` (`/repo/feax/profiler.py:286-315`): number and bytes of live arrays per device; the arrays are
looked up by the *platform* of the device. -/
def memorySnapshot (devices : List Device) (live : List LiveArray) : List (ℕ × ℕ × ℕ) :=
  devices.map fun dev =>
    let arrays := live.filter fun a => a.platform = dev.platform
    (dev.id, arrays.length, (arrays.map (·.nbytes)).sum)

section
variable {R : Type*} [CommRing R] [LinearOrder R] {α β : Type*}

/-- `SolverProfile` (`/repo/feax/profiler.py:323-345`), without label and times; `steps` is the number of entries of
`iteration_times`. -/
structure SolverProfile (R : Type*) where
  norms : List R := []
  steps : ℕ := 0
  converged : Bool := false

/-- The loop of `profile_solver_py` (`/repo/feax/profiler.py:473-494`): residual and tangent with boundary conditions
(`create_res_bc_function`, `create_J_bc_csr_function`, symmetric elimination), `norm` the Euclidean norm. -/
def profileLoop (d : Discretization R α β) (bc : DirichletBC R) (solve : CSRMatrix R → List R → List R)
    (norm : List R → R) (tol : R) : ℕ → List R → SolverProfile R → List R × SolverProfile R
  | 0, sol, prof => (sol, prof)
  | k + 1, sol, prof =>
    let res := d.resBc bc sol
    let prof' : SolverProfile R := { norms := prof.norms ++ [norm res], steps := prof.steps + 1, converged := prof.converged }
    if norm res < tol then (sol, { prof' with converged := true })
    else
      let du := solve (d.jacBcAt bc true sol) (vneg res)
      profileLoop d bc solve norm tol k (vadd sol du) prof'

/-- `profile_solver_py` (`/repo/feax/profiler.py:408-497`) once the linear solver is chosen. -/
def profileSolverPy (d : Discretization R α β) (bc : DirichletBC R) (solve : CSRMatrix R → List R → List R)
    (norm : List R → R) (tol : R) (maxIter : ℕ) (guess : List R) : List R × SolverProfile R :=
  profileLoop d bc solve norm tol maxIter guess {}

end

end Verif.Model
