import Verif.Model.Solve
import Verif.Model.AsdOps
import Mathlib.Algebra.BigOperators.Group.Finset.Basic

/-!
# `feax.solvers.newton`: extra residual terms

The Newton solver of `create_newton_solver(..., extra_residual_fn=...)`: the total residual, its two tangents (a product
for Krylov solvers, an assembled matrix for direct solvers) and the two reverse rules. The loop itself is
`Model/Newton.lean`. Automatic differentiation is a contract: products with the matrix `jac` of the extra term.
-/

namespace Verif.Model

open scoped BigOperators

variable {R : Type} [CommRing R] {α β : Type*}

/-- `extra_residual_fn` and the entries of its Jacobian, as automatic differentiation sees them. -/
structure ExtraTerm (R : Type) where
  fn : List R → List R
  jac : List R → ℕ → ℕ → R

namespace ExtraTerm

/-- `x.at[rows].set(0.0)`. -/
def zeroAt (rows : List ℕ) (x : List R) : List R := scatterSet x rows (List.replicate rows.length 0)

/-- `extra_res_bc` (`/repo/feax/solvers/newton.py:423-429, 622-634`); the value is that of `extra_res_rows`
(`/repo/feax/solvers/newton.py:431-434, 636-638`): `stop_gradient` acts on the tangent only. -/
def resBc (e : ExtraTerm R) (rows : List ℕ) (sol : List R) : List R := zeroAt rows (e.fn sol)

/-- `jax.jvp(extra_res_bc, (sol,), (v,))` (`/repo/feax/solvers/newton.py:699-700`): under symmetric elimination the
tangent of the constrained entries is stopped. -/
def jvp (e : ExtraTerm R) (n : ℕ) (rows : List ℕ) (symmetric : Bool) (sol v : List R) : List R :=
  let w := if symmetric then zeroAt rows v else v
  zeroAt rows ((List.range n).map fun i => ∑ j ∈ Finset.range n, e.jac sol i j * w.getD j 0)

/-- The product of `jax.vjp(extra_res_bc, sol)` (`/repo/feax/solvers/newton.py:157-162`); with `symmetric = false` it is
that of `extra_rows_fn` (`/repo/feax/solvers/newton.py:210-213`). -/
def vjp (e : ExtraTerm R) (n : ℕ) (rows : List ℕ) (symmetric : Bool) (sol w : List R) : List R :=
  let wf := zeroAt rows w
  let y := (List.range n).map fun j => ∑ i ∈ Finset.range n, e.jac sol i j * wf.getD i 0
  if symmetric then zeroAt rows y else y

/-- `_hybrid_total_res` and `res_total_jit` (`/repo/feax/solvers/newton.py:472-473, 671-673`). -/
def totalRes (e : ExtraTerm R) (d : Discretization R α β) (rows : List ℕ) (bc : DirichletBC R) (sol : List R) : List R :=
  vadd (d.resBc bc sol) (e.resBc rows sol)

/-- `matvec` of the hybrid loop (`/repo/feax/solvers/newton.py:697-701`). -/
def hybridOp (e : ExtraTerm R) (d : Discretization R α β) (rows : List ℕ) (symmetric : Bool) (bc : DirichletBC R)
    (sol v : List R) : List R :=
  vadd ((d.jacBcAt bc symmetric sol).matvec v) (e.jvp d.p.n rows symmetric sol v)

/-- `adjoint_matvec` of the hybrid reverse rule (`/repo/feax/solvers/newton.py:154-162`). -/
def hybridAdjointOp (e : ExtraTerm R) (d : Discretization R α β) (rows : List ℕ) (symmetric : Bool) (bc : DirichletBC R)
    (sol w : List R) : List R :=
  vadd ((d.jacBcAt bc symmetric sol).rmatvec w) (e.vjp d.p.n rows symmetric sol w)

/-- The pattern of a CSR matrix, as given to `merge_csr_patterns` (`/repo/feax/solvers/newton.py:438-446`). -/
def csrPattern (A : CSRMatrix R) : StoredPattern :=
  ⟨A.numRows, A.numCols, (A.rowOfSlot.zip A.indices).map fun rc => (rc.1, rc.2, true)⟩

/-- `J_merged_param` and `J_merged_T_param` (`/repo/feax/solvers/newton.py:416-419, 438-462`). `detected` is the sparsity
asdex finds for `extra_res_bc`. Simplification: the patterns are read off the two matrices, whose arrays do not depend on
the state. -/
def assembledOps (e : ExtraTerm R) (d : Discretization R α β) (rows : List ℕ) (symmetric : Bool)
    (color : List ℕ → List ℕ → ℕ → ℕ → Asd.Coloring) (detected : List ℕ × List ℕ) (bc : DirichletBC R) (sol : List R) :
    Except PyErr (CSRMatrix R × CSRMatrix R) := do
  if d.p.view ≠ .full then .error .valueError
  else
    let Jx ← Asd.sparseJacobian color (some (detected.1, detected.2, d.p.n, d.p.n)) none
      (e.jvp d.p.n rows symmetric sol) (e.vjp d.p.n rows symmetric sol)
    let Jb := d.jacBcAt bc symmetric sol
    match mergeCsrPatterns (csrPattern Jb) (csrPattern Jx) with
    | .error err => .error err
    | .ok m =>
      let J := mergedMatrix m Jb.data Jx.data
      .ok (J, J.transposeWithMaps m.tPerm m.tIndptr m.tIndices)

/-- The operator of the forward solve: `direct` takes the merged matrix, otherwise the product
(`/repo/feax/solvers/newton.py:495, 614-618, 697-701`). -/
def operator (e : ExtraTerm R) (d : Discretization R α β) (rows : List ℕ) (symmetric direct : Bool)
    (color : List ℕ → List ℕ → ℕ → ℕ → Asd.Coloring) (detected : List ℕ × List ℕ) (bc : DirichletBC R) (sol : List R) :
    Except PyErr (Operator R) :=
  if direct then (e.assembledOps d rows symmetric color detected bc sol).map fun JT => .csr JT.1
  else .ok (.fn (e.hybridOp d rows symmetric bc sol))

/-- The operator of the adjoint solve: `direct` (a direct adjoint solver on the assembled path,
`/repo/feax/solvers/newton.py:538-546`) takes the transposed merged matrix, otherwise the product
(`/repo/feax/solvers/newton.py:142-171`). -/
def adjointOperator (e : ExtraTerm R) (d : Discretization R α β) (rows : List ℕ) (symmetric direct : Bool)
    (color : List ℕ → List ℕ → ℕ → ℕ → Asd.Coloring) (detected : List ℕ × List ℕ) (bc : DirichletBC R) (sol : List R) :
    Except PyErr (Operator R) :=
  if direct then (e.assembledOps d rows symmetric color detected bc sol).map fun JT => .csr JT.2
  else .ok (.fn (e.hybridAdjointOp d rows symmetric bc sol))

/-- The Newton direction of both loops (`/repo/feax/solvers/newton.py:495-496, 697-719`), started from zero.
Simplification: the direct path passes no starting point. -/
def direction (e : ExtraTerm R) (d : Discretization R α β) (rows : List ℕ) (symmetric direct : Bool)
    (color : List ℕ → List ℕ → ℕ → ℕ → Asd.Coloring) (detected : List ℕ × List ℕ) (backend : Backend R)
    (bc : DirichletBC R) (sol : List R) : Except PyErr (List R) :=
  (e.operator d rows symmetric direct color detected bc sol).map fun op =>
    backend op (vneg (e.totalRes d rows bc sol)) (List.replicate sol.length 0)

/-- The correction at constrained DOFs (`/repo/feax/solvers/newton.py:200-216`). -/
def correctAdjoint (e : ExtraTerm R) (d : Discretization R α β) (rows : List ℕ) (bc : DirichletBC R) (sol v adj : List R) :
    List R :=
  let lamFree := zeroAt bc.rows adj
  let correction := vadd (gather 0 ((d.jacobianAt sol).rmatvec lamFree) bc.rows)
    (gather 0 (e.vjp d.p.n rows false sol lamFree) bc.rows)
  scatterSet adj bc.rows (List.zipWith (· - ·) (gather 0 v bc.rows) correction)

/-- The adjoint vector of `f_bwd` with an extra term (`/repo/feax/solvers/newton.py:140-171, 200-216`). -/
def adjoint (e : ExtraTerm R) (d : Discretization R α β) (rows : List ℕ) (symmetric direct : Bool)
    (color : List ℕ → List ℕ → ℕ → ℕ → Asd.Coloring) (detected : List ℕ × List ℕ) (backend : Backend R)
    (bc : DirichletBC R) (sol v : List R) : Except PyErr (List R) :=
  (e.adjointOperator d rows symmetric direct color detected bc sol).map fun op =>
    let adj := backend op v (adjointX0 bc v)
    if symmetric then e.correctAdjoint d rows bc sol v adj else adj

end ExtraTerm

end Verif.Model
