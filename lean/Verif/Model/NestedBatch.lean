import Verif.Model.Direct

/-!
# Direct solves with several batch axes
-/

namespace Verif.Model
variable {K : Type*} [Zero K]

/-- `x.reshape(outer, inner, n)` of a stack of rows. -/
def regroup (outer inner : ℕ) (x : List (List K)) : List (List (List K)) :=
  (List.range outer).map fun i => (List.range inner).map fun j => x.getD (i * inner + j) []

/-- The values of a call with two batch axes: one vector for all instances, or `csr_values.reshape(total_batch, nnz)`
(`/repo/feax/solvers/direct/_callback_utils.py:62-72`). -/
def mergedValues : List K ⊕ List (List (List K)) → BatchValues K
  | .inl v => .shared v
  | .inr vs => .each vs.flatten

/-- `spsolve_batched`, `cholmod_solve_batched` and `umfpack_solve_batched` called with right-hand sides of shape
`(outer, inner, n)` and values of shape `(outer, inner, nnz)` or `(nnz,)`
(`/repo/feax/solvers/direct/_callback_utils.py:51-76`, `/repo/feax/solvers/direct/spsolve.py:112-132`,
`/repo/feax/solvers/direct/cholmod.py:155-180`, `/repo/feax/solvers/direct/umfpack.py:174-203`): the axes in front are
merged, the merged batch is solved, and the axes are restored. -/
def gridBatched (batched : List (List K) → BatchValues K → List ℕ → List ℕ → Except PyErr (List (List K))) (outer inner : ℕ)
    (b : List (List (List K))) (vals : List K ⊕ List (List (List K))) (offsets columns : List ℕ) :
    Except PyErr (List (List (List K))) := do
  let x ← batched b.flatten (mergedValues vals) offsets columns
  pure (regroup outer inner x)

/-- `int(row)` of a numpy array: only arrays with one entry are numbers. -/
def pyIntOfArray (row : List ℕ) : Except PyErr ℕ :=
  match row with
  | [x] => .ok x
  | _ => .error .typeError

/-- The host callback of a batched solve under a second `vmap`: with `vmap_method="broadcast_all"`
(`/repo/feax/solvers/direct/spsolve.py:18`, `cholmod.py:20`, `umfpack.py:23`) every argument arrives with the new axis in
front, also `csr_offsets`, whose last entry `assemble_batched_csr_arrays_np` reads with `int(single_indptr[-1])`
(`/repo/feax/solvers/direct/_callback_utils.py:86-87`). `rest` is what follows. -/
def nestedCallback {X : Type} (offsets : List (List ℕ)) (rest : ℕ → Except PyErr X) : Except PyErr X := do
  let nnz ← pyIntOfArray (offsets.getLastD [])
  rest nnz

/-- `jax.vmap(jax.vmap(solve))`: the rule of the inner `vmap` picks the first of the mapped patterns (`vmapSolve`); the
outer `vmap` repeats it for each of its `outer` instances. -/
def nestedVmapSolve {X : Type} (outer : ℕ) (offsets : Mapped (List ℕ)) (rest : ℕ → Except PyErr X) : Except PyErr X :=
  nestedCallback (List.replicate outer (offsets.first [])) rest

end Verif.Model
