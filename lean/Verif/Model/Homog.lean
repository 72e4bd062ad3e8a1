import Verif.Model.Solution
import Mathlib.Data.Real.Basic
import Mathlib.LinearAlgebra.Matrix.Notation
import Mathlib.Data.List.Dedup

/-!
# `feax.flat.solver`: computational homogenisation of a periodic unit cell

Numbers are reals. A nodal field is a function of node and component, zero beyond the array. The periodic
prolongation is the map `col` from DOFs to reduced DOFs, one entry `1` per row, as `prolongation_matrix` builds it
(`Verif.Model.prolongationOf`, property C22).
-/

namespace Verif.Model.Homog
open Verif.Model

variable {d : ℕ}

/-- A displacement array of shape `(num_nodes, d)`. -/
abbrev Field (d : ℕ) := ℕ → Fin d → ℝ

/-- One quadrature point of one cell: the cell's nodes with their shape gradients (`problem.shape_grads`,
`/repo/feax/flat/solver.py:103-106`), its weight (`JxW`, `/repo/feax/flat/solver.py:109-111`) and `tensor_map` with the volume
parameters of the point filled in (`/repo/feax/flat/solver.py:127-144`; the interpolation itself is in `Verif.Model.Vars`). -/
structure HPoint (d : ℕ) where
  nodes : List (ℕ × (Fin d → ℝ))
  w : ℝ
  stress : Matrix (Fin d) (Fin d) ℝ → Matrix (Fin d) (Fin d) ℝ

/-- `UNIT_STRAINS_3D` (`/repo/feax/flat/solver.py:31-38`). -/
noncomputable def unitStrains3 : List (Matrix (Fin 3) (Fin 3) ℝ) :=
  [!![1, 0, 0; 0, 0, 0; 0, 0, 0],
   !![0, 0, 0; 0, 1, 0; 0, 0, 0],
   !![0, 0, 0; 0, 0, 0; 0, 0, 1],
   !![0, 0, 0; 0, 0, 1 / 2; 0, 1 / 2, 0],
   !![0, 0, 1 / 2; 0, 0, 0; 1 / 2, 0, 0],
   !![0, 1 / 2, 0; 1 / 2, 0, 0; 0, 0, 0]]

/-- `UNIT_STRAINS_2D` (`/repo/feax/flat/solver.py:41-45`). -/
noncomputable def unitStrains2 : List (Matrix (Fin 3) (Fin 3) ℝ) :=
  [!![1, 0, 0; 0, 0, 0; 0, 0, 0],
   !![0, 0, 0; 0, 1, 0; 0, 0, 0],
   !![0, 1 / 2, 0; 1 / 2, 0, 0; 0, 0, 0]]

/-- `unit_strains_arr` (`/repo/feax/flat/solver.py:389`). -/
noncomputable def unitStrains (dim : ℕ) : List (Matrix (Fin 3) (Fin 3) ℝ) :=
  if dim = 3 then unitStrains3 else unitStrains2

/-- Coordinates padded with zeros to three (`/repo/feax/flat/solver.py:73`). -/
def pad (x : Fin d → ℝ) : Fin 3 → ℝ := fun j => if h : j.1 < d then x ⟨j, h⟩ else 0

/-- `macro_displacement` (`/repo/feax/flat/solver.py:52-75`): `u_i = ε_ij X_j`, the first `d` components.
Simplification: `d ≤ 3`. -/
noncomputable def macroDisplacement (X : Field d) (eps : Matrix (Fin 3) (Fin 3) ℝ) : Field d := fun n i =>
  if h : i.1 < 3 then ∑ j, eps ⟨i, h⟩ j * pad (X n) j else 0

/-- `u_grads` at one point (`/repo/feax/flat/solver.py:117`; the assembler's `op.grad`, `/repo/feax/assembler.py:439`). -/
def gradAt (q : HPoint d) (u : Field d) : Matrix (Fin d) (Fin d) ℝ := fun v j =>
  (q.nodes.map fun a => u a.1 v * a.2 j).sum

/-- `total_volume` (`/repo/feax/flat/solver.py:113`). -/
def volume (pts : List (HPoint d)) : ℝ := (pts.map (·.w)).sum

/-- `sigma` (`/repo/feax/flat/solver.py:141-149`). -/
noncomputable def meanStress (pts : List (HPoint d)) (u : Field d) : Matrix (Fin d) (Fin d) ℝ := fun v j =>
  (pts.map fun q => q.w * q.stress (gradAt q u) v j).sum / volume pts

/-- `sigma[i, j]` (`/repo/feax/flat/solver.py:151-157`): JAX clamps an index out of range to the last one. -/
def sigmaAt (s : Matrix (Fin d) (Fin d) ℝ) (i j : ℕ) : ℝ :=
  if h : 0 < d then s ⟨min i (d - 1), by omega⟩ ⟨min j (d - 1), by omega⟩ else 0

/-- The Voigt vector of a stress (`/repo/feax/flat/solver.py:151-157`). -/
def voigt (dim : ℕ) (s : Matrix (Fin d) (Fin d) ℝ) : List ℝ :=
  if dim = 2 then [sigmaAt s 0 0, sigmaAt s 1 1, sigmaAt s 0 1]
  else [sigmaAt s 0 0, sigmaAt s 1 1, sigmaAt s 2 2, sigmaAt s 1 2, sigmaAt s 0 2, sigmaAt s 0 1]

/-- `average_stress` (`/repo/feax/flat/solver.py:78-157`). -/
noncomputable def averageStress (dim : ℕ) (pts : List (HPoint d)) (u : Field d) : List ℝ := voigt dim (meanStress pts u)

/-- The assembled residual of the Laplace kernel (`/repo/feax/assembler.py:430-446`), `∫ σ(∇u) : ∇v`. Simplification: one
variable, no surface terms and an empty Dirichlet list, as `create_homogenization_solver` asks for
(`/repo/feax/flat/solver.py:352-358`). -/
def residual (pts : List (HPoint d)) (u : Field d) : Field d := fun n i =>
  (pts.map fun q => (q.nodes.map fun a =>
    if a.1 = n then q.w * ∑ j, q.stress (gradAt q u) i j * a.2 j else 0).sum).sum

/-- `P`: the number of nodes, the number of reduced DOFs and the reduced DOF of every DOF. -/
structure Tie (d : ℕ) where
  N : ℕ
  M : ℕ
  col : ℕ → Fin d → ℕ

/-- `P @ x` (`/repo/feax/solvers/reduced.py:214-218`). -/
def Tie.prolong (P : Tie d) (x : ℕ → ℝ) : Field d := fun n i => x (P.col n i)

/-- `P.T @ r` (`/repo/feax/solvers/reduced.py:211`). -/
def Tie.restrict (P : Tie d) (r : Field d) : ℕ → ℝ := fun k =>
  ∑ n ∈ Finset.range P.N, ∑ i, if P.col n i = k then r n i else 0

/-- `J_reduced_matvec` (`/repo/feax/solvers/reduced.py:213-214`; `/repo/feax/flat/solver.py:291-292`). Simplification: the tangent of the
residual of a linear material is the residual map itself. -/
def reducedOp (pts : List (HPoint d)) (P : Tie d) (x : ℕ → ℝ) : ℕ → ℝ := P.restrict (residual pts (P.prolong x))

/-- `-res_reduced` (`/repo/feax/solvers/reduced.py:208-217`; `/repo/feax/flat/solver.py:296-297`). -/
def caseRhs (pts : List (HPoint d)) (P : Tie d) (um : Field d) : ℕ → ℝ := fun k => -P.restrict (residual pts um) k

/-- A matrix-free linear solver: operator and right-hand side to solution. -/
abbrev Solver := ((ℕ → ℝ) → ℕ → ℝ) → (ℕ → ℝ) → ℕ → ℝ

/-- `fluctuation_solver(traced_params, u_macro)` (`/repo/feax/flat/solver.py:423`, `/repo/feax/solvers/reduced.py:205-219`). -/
def krylovCase (solve : Solver) (pts : List (HPoint d)) (P : Tie d) (um : Field d) : Field d := fun n i =>
  um n i + P.prolong (solve (reducedOp pts P) (caseRhs pts P um)) n i

/-- `adjoint_full` of the reduced solver (`/repo/feax/solvers/reduced.py:229-243`) for the cotangent `v` of the solution. -/
def adjointField (solve : Solver) (pts : List (HPoint d)) (P : Tie d) (v : Field d) : Field d :=
  P.prolong (solve (reducedOp pts P) (P.restrict v))

/-- The cotangent of a scalar parameter (`/repo/feax/solvers/reduced.py:249-260`): the negated vector-Jacobian product of the residual at
the solution with the adjoint; `dR` is the derivative of the residual with respect to the parameter. -/
def paramCotangent (P : Tie d) (adjoint dR : Field d) : ℝ :=
  -∑ n ∈ Finset.range P.N, ∑ i, adjoint n i * dR n i

/-- `HomogenizationResult` (`/repo/feax/flat/solver.py:173-188`). -/
structure Result (d : ℕ) where
  cHom : List (List ℝ)
  uTotals : List (Field d)
  uMacros : List (Field d)

/-- `columns.T` (`/repo/feax/flat/solver.py:437`): `n` rows. -/
def transpose (n : ℕ) (columns : List (List ℝ)) : List (List ℝ) :=
  (List.range n).map fun i => columns.map fun c => c.getD i 0

/-- `solve` of `create_homogenization_solver` (`/repo/feax/flat/solver.py:386-389,421-442`, and `:306-319` on the direct path), given
the treatment of one strain case. -/
noncomputable def homogenize (dim : ℕ) (pts : List (HPoint d)) (X : Field d) (solveCase : Field d → Field d) :
    Except PyErr (Result d) :=
  if dim ≠ 2 ∧ dim ≠ 3 then .error .valueError
  else
    let macros := (unitStrains dim).map (macroDisplacement X)
    let totals := macros.map solveCase
    let columns := totals.map (averageStress dim pts)
    .ok ⟨transpose (voigt (d := d) dim 0).length columns, totals, macros⟩

/-! ## Direct path -/

/-- The minimum of a nonempty list of naturals. -/
def minOf : List ℕ → ℕ
  | [] => 0
  | a :: l => l.foldl min a

/-- `P.indices` (`/repo/feax/flat/solver.py:210`): full DOF `d n + i` and its reduced DOF. -/
def Tie.entries (P : Tie d) : List (ℕ × ℕ) :=
  (List.range P.N).flatMap fun n => (List.finRange d).map fun i : Fin d => (d * n + i.1, P.col n i)

/-- `_translation_pin_dofs` (`/repo/feax/flat/solver.py:204-223`). Simplification: the pins are not sorted; only membership matters
afterwards. -/
def translationPins (entries : List (ℕ × ℕ)) (vec dim : ℕ) : Except PyErr (List ℕ) := do
  let pins ← (List.range dim).mapM fun c =>
    let cand := (entries.filter fun e => e.1 % vec == c).map (·.2)
    if cand.isEmpty then Except.error PyErr.valueError else .ok (minOf cand)
  if pins.dedup.length ≠ dim then .error .valueError else .ok pins.dedup

/-- `K`, the materialised reduced operator (`/repo/feax/flat/solver.py:289-293`). Simplification: a dense matrix; the pattern is a
superset of the nonzeros. -/
def reducedMatrix (pts : List (HPoint d)) (P : Tie d) (i j : ℕ) : ℝ :=
  reducedOp pts P (fun k => if k = j then 1 else 0) i

/-- `_pinned_data` (`/repo/feax/flat/solver.py:247-266`). -/
def pinnedMatrix (K : ℕ → ℕ → ℝ) (pins : List ℕ) (i j : ℕ) : ℝ :=
  if i ∈ pins ∨ j ∈ pins then (if i = j then 1 else 0) else K i j

/-- `_case_rhs` (`/repo/feax/flat/solver.py:295-298`). -/
def pinnedRhs (pts : List (HPoint d)) (P : Tie d) (pins : List ℕ) (um : Field d) : ℕ → ℝ := fun k =>
  if k ∈ pins then 0 else caseRhs pts P um k

/-- `_zero_mean` (`/repo/feax/flat/solver.py:300-304`). -/
noncomputable def zeroMean (N : ℕ) (f : Field d) : Field d := fun n i => f n i - (∑ m ∈ Finset.range N, f m i) / N

/-- A direct solver: `factorize` and `solve_with` (`/repo/feax/flat/solver.py:270-273`). -/
abbrev DirectSolver := (ℕ → ℕ → ℝ) → (ℕ → ℝ) → ℕ → ℝ

/-- One case on the direct path (`/repo/feax/flat/solver.py:306-315`). -/
noncomputable def directCase (solve : DirectSolver) (pts : List (HPoint d)) (P : Tie d) (pins : List ℕ) (um : Field d) : Field d :=
  fun n i => um n i +
    zeroMean P.N (P.prolong (solve (pinnedMatrix (reducedMatrix pts P) pins) (pinnedRhs pts P pins um))) n i

/-- `create_homogenization_solver` with `DirectSolverOptions` on a box with cuDSS
(`/repo/feax/flat/solver.py:386-389,405-408,249,306-319`). -/
noncomputable def homogenizeDirect (dim : ℕ) (solve : DirectSolver) (pts : List (HPoint d)) (P : Tie d) (X : Field d) :
    Except PyErr (Result d) :=
  if dim ≠ 2 ∧ dim ≠ 3 then .error .valueError
  else do
    let pins ← translationPins P.entries d dim
    homogenize dim pts X (directCase solve pts P pins)

/-- `_solve_bwd` (`/repo/feax/flat/solver.py:280-285`): the cotangents of the matrix entries and of the right-hand sides from those
of the solutions, with the factorisation of the forward solve. -/
def solveBwd (solve : DirectSolver) (A : ℕ → ℕ → ℝ) (xs xbars : List (ℕ → ℝ)) : (ℕ → ℕ → ℝ) × List (ℕ → ℝ) :=
  let lams := xbars.map (solve A)
  (fun i j => -((lams.zip xs).map fun lx => lx.1 i * lx.2 j).sum, lams)

end Verif.Model.Homog
