import Verif.Model.Arr

/-!
# DOF layout of a multi-variable problem (`Problem.__post_init__`, `Solution`)
-/

namespace Verif.Model

/-- One solution variable (`FiniteElement` fields used by the layout): `vec` components per node,
`numNodes = num_total_nodes`, `nn = num_nodes` (nodes per element), `cells` the connectivity rows
(`/repo/feax/fe.py:60-75`). -/
structure Var where
  vec : ℕ
  numNodes : ℕ
  nn : ℕ
  cells : List (List ℕ)
deriving DecidableEq, Repr

/-- `fe.num_total_dofs` (`/repo/feax/fe.py:73`). -/
def Var.numDofs (v : Var) : ℕ := v.numNodes * v.vec

/-- `Problem.offset` (`/repo/feax/problem.py:157-159`): running sum starting from `acc`. -/
def offsetsFrom (acc : ℕ) : List Var → List ℕ
  | [] => []
  | v :: vs => acc :: offsetsFrom (acc + v.numDofs) vs

/-- `Problem.offset`. -/
def offsets (vars : List Var) : List ℕ := offsetsFrom 0 vars

/-- `num_total_dofs_all_vars` (`/repo/feax/problem.py:239-247`). -/
def numDofs (vars : List Var) : ℕ := (vars.map Var.numDofs).sum

/-- DOF numbers of one variable on one element (`/repo/feax/problem.py:171-177`):
`vec * c[:, :, None] + arange(vec) + offset`, flattened node-major. -/
def varDofs (vec off : ℕ) (nodes : List ℕ) : List ℕ :=
  (nodes.map (fun node => (List.range vec).map (fun comp => vec * node + comp + off))).flatten

/-- One row of `_build_inds` (`/repo/feax/problem.py:161-181`): DOFs of cell `c`, variables
concatenated along the DOF axis. -/
def cellDofs (vars : List Var) (c : ℕ) : List ℕ :=
  ((vars.zip (offsets vars)).map
    (fun p => varDofs p.1.vec p.2 (p.1.cells.getD c []))).flatten

/-- `_build_inds(cells_list)` (`/repo/feax/problem.py:186`). `numCells` is that of variable 0
(`/repo/feax/problem.py:154`). -/
def buildInds (vars : List Var) (numCells : ℕ) : List (List ℕ) :=
  (List.range numCells).map (cellDofs vars)

/-- `_build_inds` on `cells[boundary_inds[:, 0]]` (`/repo/feax/problem.py:202-204`). -/
def buildFaceInds (vars : List Var) (faceCells : List ℕ) : List (List ℕ) :=
  faceCells.map (cellDofs vars)

/-- `reshape(rows, cols)` of a flat array (row-major). -/
def reshapeRows {α : Type*} (rows cols : ℕ) (xs : List α) : List (List α) :=
  (List.range rows).map (fun i => (xs.drop (i * cols)).take cols)

/-- `unflatten_fn_sol_list` (`ravel_pytree` inverse, `/repo/feax/problem.py:241-246`): split the flat
vector into one `(num_total_nodes, vec)` array per variable. -/
def unflatten {α : Type*} : List Var → List α → List (List (List α))
  | [], _ => []
  | v :: vs, flat =>
    reshapeRows v.numNodes v.vec (flat.take v.numDofs) :: unflatten vs (flat.drop v.numDofs)

/-- `jax.flatten_util.ravel_pytree(sol_list)[0]` (`/repo/feax/problem.py:242`). -/
def ravel {α : Type*} (sols : List (List (List α))) : List α := (sols.map List.flatten).flatten

/-- `cells_sol_list = [sol[cells] ...]` then per-cell `ravel_pytree`
(`/repo/feax/assembler.py:1381-1382`, `1658-1659`): local solution vector of cell `c`. -/
def cellSol {α : Type*} (vars : List Var) (sols : List (List (List α))) (c : ℕ) : List α :=
  ((vars.zip sols).map
    (fun p => ((p.1.cells.getD c []).map (fun node => p.2.getD node [])).flatten)).flatten

end Verif.Model
