import Verif.Model.Csr
import Verif.Model.Solution
import Verif.Model.Assembly

/-!
# `feax.solvers.direct`: batched host callbacks and cached factorisations
-/

namespace Verif.Model

section Batched
variable {K : Type*} [Zero K]

/-- `assemble_batched_csr_arrays_np` (`/repo/feax/solvers/direct/_callback_utils.py:79-111`), the three arrays
returned together with the shape they are used with (`rhs_flat.shape[0]`, `build_csr_matrix`, lines 114-117).
Simplification: rows of `blocks` have equal length (numpy 2-D array); the index dtypes do not overflow. -/
def assembleBatched (blocks : List (List K)) (indices indptr : List ℕ) (ncols : ℕ) : Except PyErr (CSRMatrix K) :=
  let batch := blocks.length
  let nnz := indptr.getLastD 0
  let nRows := indptr.length - 1
  if indices.length < nnz then .error .valueError
  else if blocks.any (fun d => decide (d.length < nnz)) then .error .valueError
  else
    let idx := indices.take nnz
    .ok {
      data := (blocks.map (·.take nnz)).flatten
      indices := ((List.range batch).map fun b => idx.map fun j => j + b * ncols).flatten
      indptr := indptr.headD 0 :: ((List.range batch).map fun b => indptr.tail.map fun p => p + b * nnz).flatten
      numRows := batch * nRows
      numCols := batch * nRows }

/-- `build_csr_matrix` (`/repo/feax/solvers/direct/_callback_utils.py:114-117`). -/
def buildCsr (values : List K) (columns offsets : List ℕ) (n : ℕ) : CSRMatrix K :=
  let nnz := offsets.getLastD 0
  { data := values.take nnz, indptr := offsets, indices := columns.take nnz, numRows := n, numCols := n }

/-- `x.T` of a 2-D array with `n` columns. -/
def transposeRows (n : ℕ) (rows : List (List K)) : List (List K) :=
  (List.range n).map fun i => rows.map fun r => r.getD i 0

/-- `x.reshape(-1, order="F")` of a 2-D array with `m` columns. -/
def flattenF (m : ℕ) (rows : List (List K)) : List K :=
  ((List.range m).map fun j => rows.map fun r => r.getD j 0).flatten

/-- `x.reshape((n, m), order="F")`. -/
def reshapeF (n m : ℕ) (x : List K) : List (List K) :=
  (List.range n).map fun i => (List.range m).map fun j => x.getD (j * n + i) 0

/-- `csr_values` of a batched call: one row for all systems or one per system. -/
inductive BatchValues (K : Type*) where
  | shared (v : List K)
  | each (vs : List (List K))

/-- `prepare_batched_csr_payload` (`/repo/feax/solvers/direct/_callback_utils.py:39-76`), its checks. Simplification:
one batch axis (`b_values` of rank 2, rows of length `n`). -/
def payloadOk (n : ℕ) (b : List (List K)) (vals : BatchValues K) (offsets columns : List ℕ) : Bool :=
  decide (offsets.length = n + 1) &&
    match vals with
    | .shared v => decide (v.length = columns.length)
    | .each vs => decide (vs.length = b.length) && vs.all fun v => decide (v.length = columns.length)

/-- `umfpack_solve_batched` with the host callback (`/repo/feax/solvers/direct/umfpack.py:70-116,158-203`).
`solve` is the factorisation and solve of one system (`_factorize_and_solve_with_cache`; `trans` included); with
shared values the right-hand sides are the columns of one solve. -/
def umfpackBatched (solve : CSRMatrix K → List K → Except PyErr (List K)) (n : ℕ) (b : List (List K))
    (vals : BatchValues K) (offsets columns : List ℕ) : Except PyErr (List (List K)) :=
  if payloadOk n b vals offsets columns then
    let bCols := transposeRows n b
    match vals with
    | .shared v => do
      let cols ← ((List.range b.length).map fun j => bCols.map fun r => r.getD j 0).mapM
        (solve (buildCsr v columns offsets n))
      pure (transposeRows b.length (transposeRows n cols))
    | .each vs => do
      let A ← assembleBatched vs columns offsets n
      let x ← solve A (flattenF b.length bCols)
      pure (transposeRows b.length (reshapeF n b.length x))
  else .error .valueError

/-- `cholmod_solve_batched` with the host callback (`/repo/feax/solvers/direct/cholmod.py:68-103,143-180`), and
`spsolve`'s (`/repo/feax/solvers/direct/spsolve.py:44-62`), which do the same: shared values are repeated. -/
def cholmodBatched (solve : CSRMatrix K → List K → Except PyErr (List K)) (n : ℕ) (b : List (List K))
    (vals : BatchValues K) (offsets columns : List ℕ) : Except PyErr (List (List K)) :=
  if payloadOk n b vals offsets columns then do
    let blocks := match vals with
      | .shared v => List.replicate b.length v
      | .each vs => vs
    let A ← assembleBatched blocks columns offsets n
    let x ← solve A b.flatten
    pure (reshapeRows b.length n x)
  else .error .valueError

/-- A vmapped argument: the same for all, or one per instance. -/
inductive Mapped (α : Type*) where
  | same (x : α)
  | each (xs : List α)

/-- Argument of instance `k`. -/
def Mapped.at {α : Type*} (d : α) : Mapped α → ℕ → α
  | .same x, _ => x
  | .each xs, k => xs.getD k d

/-- `jax.lax.index_in_dim(x, 0)` of a mapped argument (`/repo/feax/solvers/direct/_callback_utils.py:131-136`). -/
def Mapped.first {α : Type*} (d : α) : Mapped α → α
  | .same x => x
  | .each xs => xs.headD d

/-- The vmap rule with `prepare_solver_vmap_inputs` (`/repo/feax/solvers/direct/_callback_utils.py:120-148`,
`/repo/feax/solvers/direct/umfpack.py:229-256`, `/repo/feax/solvers/direct/cholmod.py:212-240`). `batched` is the
batched solve. Neither `b` nor the values mapped: the batched solve rejects the rank (`ValueError`). -/
def vmapSolve (batched : List (List K) → BatchValues K → List ℕ → List ℕ → Except PyErr (List (List K))) (size : ℕ)
    (b : Mapped (List K)) (values : Mapped (List K)) (offsets columns : Mapped (List ℕ)) :
    Except PyErr (List (List K)) :=
  let o := offsets.first []
  let c := columns.first []
  match b, values with
  | .same _, .same _ => .error .valueError
  | .each bs, .each vs => batched bs (.each vs) o c
  | .each bs, .same v => batched bs (.each (List.replicate size v)) o c
  | .same b, .each vs => batched (List.replicate size b) (.each vs) o c

end Batched

/-! ## Cached factorisations -/

/-- The factorisation library (sksparse): `factor` analyses and factorises, `refactor` replaces the numbers of an
existing factor object (which it mutates, possibly raising), `solve` uses the object. -/
structure FactorLib (M F X Y : Type*) where
  factor : M → Except PyErr F
  refactor : F → M → F × Option PyErr
  solve : F → X → Except PyErr Y

/-- Sparsity pattern as compared by the cache: columns, offsets, size. -/
structure CsrPattern where
  columns : List ℕ
  offsets : List ℕ
  n : ℕ
  deriving DecidableEq

/-- The cache dictionary (`/repo/feax/solvers/direct/umfpack.py:26-32`,
`/repo/feax/solvers/direct/cholmod.py:23-29`). -/
structure CacheState (F : Type*) where
  factor : Option F
  columns : Option (List ℕ)
  offsets : Option (List ℕ)
  n : Option ℕ

/-- `_make_umfpack_state()`. -/
def CacheState.empty {F : Type*} : CacheState F := ⟨none, none, none, none⟩

section Cache
variable {M F X Y : Type*}

/-- `pattern_changed` (`/repo/feax/solvers/direct/umfpack.py:41-50`). -/
def CacheState.changed (s : CacheState F) (p : CsrPattern) : Bool :=
  s.factor.isNone || decide (s.n ≠ some p.n) || decide (s.columns ≠ some p.columns) ||
    decide (s.offsets ≠ some p.offsets)

/-- The factorisation part of `_factorize_and_solve_with_cache` (`/repo/feax/solvers/direct/umfpack.py:41-57`,
`/repo/feax/solvers/direct/cholmod.py:39-55`): new state, and the exception if one was raised. A raising `factor`
leaves the state as it was; a raising `factorize` has mutated the factor object. -/
def cacheFactorize (lib : FactorLib M F X Y) (s : CacheState F) (p : CsrPattern) (A : M) :
    CacheState F × Option PyErr :=
  if s.changed p then
    match lib.factor A with
    | .error e => (s, some e)
    | .ok f => (⟨some f, some p.columns, some p.offsets, some p.n⟩, none)
  else
    match s.factor with
    | none => (s, some .attributeError)
    | some f => ({ s with factor := some (lib.refactor f A).1 }, (lib.refactor f A).2)

/-- The solve (`/repo/feax/solvers/direct/umfpack.py:59`, `/repo/feax/solvers/direct/cholmod.py:57`). -/
def cacheSolve (lib : FactorLib M F X Y) (s : CacheState F) (rhs : X) : Except PyErr Y :=
  match s.factor with
  | none => .error .attributeError
  | some f => lib.solve f rhs

/-- One call of the host callback. -/
def cacheCall (lib : FactorLib M F X Y) (s : CacheState F) (p : CsrPattern) (A : M) (rhs : X) :
    CacheState F × Except PyErr Y :=
  match cacheFactorize lib s p A with
  | (s', some e) => (s', .error e)
  | (s', none) => (s', cacheSolve lib s' rhs)

/-- A call stopped by an exception between the four assignments of the cache
(`/repo/feax/solvers/direct/umfpack.py:52-55`), after `k` of them (out of memory in `columns.copy()`, an
interrupt). -/
def cacheCallInterrupted (lib : FactorLib M F X Y) (s : CacheState F) (p : CsrPattern) (A : M) (k : ℕ) : CacheState F :=
  if s.changed p then
    match lib.factor A with
    | .error _ => s
    | .ok f =>
      { factor := if 1 ≤ k then some f else s.factor
        columns := if 2 ≤ k then some p.columns else s.columns
        offsets := if 3 ≤ k then some p.offsets else s.offsets
        n := if 4 ≤ k then some p.n else s.n }
  else s

/-- A sequence of calls (arguments of each), the results of all. -/
def cacheRun (lib : FactorLib M F X Y) (s : CacheState F) : List (CsrPattern × M × X) → List (Except PyErr Y)
  | [] => []
  | c :: rest =>
    let r := cacheCall lib s c.1 c.2.1 c.2.2
    r.2 :: cacheRun lib r.1 rest

/-- Concurrent calls on one cache: each call is a factorisation step followed by a solve step; a schedule says
which call moves next. `todo` holds the calls, `done` which have factorised. Simplification: the steps themselves
are atomic. -/
def cacheSchedule (lib : FactorLib M F X Y) (calls : ℕ → CsrPattern × M × X) :
    CacheState F → (ℕ → Option (Option PyErr)) → List ℕ → List (ℕ × Except PyErr Y)
  | _, _, [] => []
  | s, progress, t :: rest =>
    match progress t with
    | none =>
      let r := cacheFactorize lib s (calls t).1 (calls t).2.1
      cacheSchedule lib calls r.1 (Function.update progress t (some r.2)) rest
    | some (some e) => (t, .error e) :: cacheSchedule lib calls s progress rest
    | some none => (t, cacheSolve lib s (calls t).2.2) :: cacheSchedule lib calls s progress rest

end Cache

end Verif.Model
