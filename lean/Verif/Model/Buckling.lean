import Verif.Model.Csr
import Verif.Model.Solution
import Mathlib.Data.Real.Basic
import Mathlib.Analysis.Real.Sqrt
import Mathlib.LinearAlgebra.Matrix.NonsingularInverse
import Mathlib.Data.Matrix.Mul

/-!
# `feax.solvers.eigen`: linear buckling factors, modes and their sensitivities

Floating point numbers are real numbers here, except in the sensitivities, where the infinities and
NaN the code feeds through them are kept (`XR`).
-/

namespace Verif.Model.Buckling
open Matrix

/-- A floating point number: NaN, the two infinities, or a finite value (exact, no rounding). -/
inductive XR where
  | nan | ninf | pinf
  | fin (x : ℝ)

/-- IEEE product (`lam_bar * lam`, `w[:, None] * phi[:, rf]` at `/repo/feax/solvers/eigen.py:701,859-860`):
zero times an infinity is NaN. Simplification: no sign of zero. -/
noncomputable def XR.mul : XR → XR → XR
  | .nan, _ => .nan
  | _, .nan => .nan
  | .fin x, .fin y => .fin (x * y)
  | .pinf, .pinf => .pinf
  | .pinf, .ninf => .ninf
  | .ninf, .pinf => .ninf
  | .ninf, .ninf => .pinf
  | .pinf, .fin y => if y = 0 then .nan else if 0 < y then .pinf else .ninf
  | .ninf, .fin y => if y = 0 then .nan else if 0 < y then .ninf else .pinf
  | .fin x, .pinf => if x = 0 then .nan else if 0 < x then .pinf else .ninf
  | .fin x, .ninf => if x = 0 then .nan else if 0 < x then .ninf else .pinf

/-- IEEE sum (`jnp.sum` at `/repo/feax/solvers/eigen.py:701`). -/
noncomputable def XR.add : XR → XR → XR
  | .nan, _ => .nan
  | _, .nan => .nan
  | .fin x, .fin y => .fin (x + y)
  | .pinf, .ninf => .nan
  | .ninf, .pinf => .nan
  | .pinf, _ => .pinf
  | _, .pinf => .pinf
  | .ninf, _ => .ninf
  | _, .ninf => .ninf

/-- `jnp.isfinite`. -/
def XR.isFin : XR → Bool
  | .fin _ => true
  | _ => false

/-- The library routines the dense path calls: `jnp.linalg.cholesky` (none: the all-NaN factor JAX
returns when the matrix is not positive definite), `jnp.linalg.eigh`, and `onp.argsort`. Only what
the specifications in `Props/Buckling.lean` say is assumed about them. -/
structure EigOps where
  chol : {n : ℕ} → Matrix (Fin n) (Fin n) ℝ → Option (Matrix (Fin n) (Fin n) ℝ)
  eigh : {n : ℕ} → Matrix (Fin n) (Fin n) ℝ → (Fin n → ℝ) × Matrix (Fin n) (Fin n) ℝ
  argsort : {n : ℕ} → (Fin n → WithTop ℝ) → List (Fin n)
  eigs : {n : ℕ} → Matrix (Fin n) (Fin n) ℝ → ℕ → List (ℝ × (Fin n → ℝ))

/-- `generalized_eigh` (`/repo/feax/solvers/eigen.py:57-90`). A NaN factor makes every output NaN:
`none`. `jnp.linalg.cholesky` symmetrises its argument (its default `symmetrize_input=True`).
Simplification: `solve_triangular(L, A)` is `L⁻¹ A` (the factor is triangular). -/
noncomputable def generalizedEigh (ops : EigOps) {n : ℕ} (A B : Matrix (Fin n) (Fin n) ℝ) :
    Option ((Fin n → ℝ) × Matrix (Fin n) (Fin n) ℝ) :=
  let A' := (1 / 2 : ℝ) • (A + Aᵀ)
  match ops.chol ((1 / 2 : ℝ) • (B + Bᵀ)) with
  | none => none
  | some L =>
    let Y := L⁻¹ * A'
    let C := (L⁻¹ * Yᵀ)ᵀ
    let C' := (1 / 2 : ℝ) • (C + Cᵀ)
    let wU := ops.eigh C'
    some (wU.1, (Lᵀ)⁻¹ * wU.2)

/-- `_restrict_csr(M, free)` (`/repo/feax/solvers/eigen.py:187-196`), densified: entry `(i, j)` is
entry `(free[i], free[j])` of the matrix; equally `_to_scipy_csr` (`:173-184`) and the dense slice
`M[ix_(free, free)]` (`:133-135`). -/
noncomputable def restrict (M : CSRMatrix ℝ) (free : List ℕ) : Matrix (Fin free.length) (Fin free.length) ℝ :=
  fun i j => M.todense free[i] free[j]

/-- `modes = zeros(N); modes[free] = v` (`/repo/feax/solvers/eigen.py:168-169,366-367`). -/
def scatterMode (N : ℕ) (free : List ℕ) (v : Fin free.length → ℝ) : List ℝ :=
  scatterSet (List.replicate N 0) free (List.ofFn v)

/-- `valid = (lam > zero_tol) & isfinite(lam)` with `lam = -1 / gamma`
(`/repo/feax/solvers/eigen.py:152-153`): a zero `gamma` gives an infinite `lam`. -/
noncomputable def denseValid {n : ℕ} (tol : ℝ) (γ : Fin n → ℝ) (i : Fin n) : Bool :=
  open Classical in decide (γ i ≠ 0 ∧ tol < -1 / γ i)

/-- `order = argsort(where(valid, lam, inf))[:num_modes]; order = order[valid[order]]`
(`/repo/feax/solvers/eigen.py:154-155`). -/
noncomputable def denseOrder (ops : EigOps) {n : ℕ} (tol : ℝ) (m : ℕ) (γ : Fin n → ℝ) : List (Fin n) :=
  ((ops.argsort (fun i => if denseValid tol γ i then ((-1 / γ i : ℝ) : WithTop ℝ) else ⊤)).take m).filter
    (denseValid tol γ)

/-- `_dense_buckling` (`/repo/feax/solvers/eigen.py:93-170`): pairs (factor, mode on all DOFs). When
the stiffness block is not positive definite every `gamma` is NaN, no entry is valid and the result
is empty. Simplification: `verbose` printing left out. -/
noncomputable def denseBuckling (ops : EigOps) (K Kg : CSRMatrix ℝ) (free : List ℕ) (m : ℕ) (tol : ℝ) :
    List (ℝ × List ℝ) :=
  match generalizedEigh ops (restrict Kg free) (restrict K free) with
  | none => []
  | some (γ, X) =>
    (denseOrder ops tol m γ).map (fun c => (-1 / γ c, scatterMode K.numRows free (fun i => X i c)))

/-- The default `zero_tol` of `_dense_buckling` (`/repo/feax/solvers/eigen.py:94`), the one
`create_linear_buckling_solver` uses. -/
noncomputable def denseTol : ℝ := 1 / 10 ^ 8

/-- The threshold `lam > 1e-12` of the Arnoldi paths (`/repo/feax/solvers/eigen.py:342`). -/
noncomputable def sparseTol : ℝ := 1 / 10 ^ 12

/-- `A v` for the shift-invert operator `T = -K⁻¹ K_g` (`/repo/feax/solvers/eigen.py:310-313`), with
`K` symmetrised as `_make_host_solve` does (`/repo/feax/solvers/eigen.py:213-241`). Simplification:
the factor-and-solve is the exact inverse. -/
noncomputable def shiftInvert {n : ℕ} (K Kg : Matrix (Fin n) (Fin n) ℝ) : Matrix (Fin n) (Fin n) ℝ :=
  -(((1 / 2 : ℝ) • (K + Kᵀ))⁻¹ * Kg)

/-- Number of eigenpairs asked of ARPACK, `k = min(num_modes + 4, nf - 2)`
(`/repo/feax/solvers/eigen.py:316`), an integer (it can be negative). -/
def arpackK (m nf : ℕ) : ℤ := min ((m : ℤ) + 4) ((nf : ℤ) - 2)

/-- Basis size given to ARPACK (`/repo/feax/solvers/eigen.py:320`). -/
def arpackNcv (m nf numMatvecs : ℕ) : ℤ := min ((nf : ℤ) - 1) (max (numMatvecs : ℤ) (2 * arpackK m nf + 1))

/-- `valid` of the Arnoldi paths (`/repo/feax/solvers/eigen.py:339-342`), for a real Ritz value `mu`.
Simplification: the Ritz values are real (they are for symmetric matrices and a positive definite
stiffness), so `real_pair` holds. -/
noncomputable def sparseValid (mu : ℝ) : Bool :=
  open Classical in decide (mu ≠ 0 ∧ sparseTol < 1 / mu)

/-- `order = argsort(where(valid, lam, inf)); order = order[valid[order]][:num_modes]`
(`/repo/feax/solvers/eigen.py:343-344`). -/
noncomputable def sparseOrder (ops : EigOps) {k : ℕ} (m : ℕ) (mu : Fin k → ℝ) : List (Fin k) :=
  ((ops.argsort (fun i => if sparseValid (mu i) then ((1 / mu i : ℝ) : WithTop ℝ) else ⊤)).filter
    (fun i => sparseValid (mu i))).take m

/-- Euclidean norm (`onp.linalg.norm`). -/
noncomputable def vnorm {n : ℕ} (x : Fin n → ℝ) : ℝ := Real.sqrt (∑ i, x i ^ 2)

/-- `_resid` (`/repo/feax/solvers/eigen.py:346-348`). -/
noncomputable def ritzResidual {n : ℕ} (T : Matrix (Fin n) (Fin n) ℝ) (p : ℝ × (Fin n → ℝ)) : ℝ :=
  vnorm (T *ᵥ p.2 - p.1 • p.2) / (vnorm p.2 + 1 / 10 ^ 30)

/-- `_sparse_buckling` (`/repo/feax/solvers/eigen.py:278-368`). `BucklingConvergenceError` is a
`RuntimeError` (`:47`). `convTol = none` switches the checks off. Simplification: the values ARPACK
returns are real; a run that converged only in part is one with a shorter result; an empty result
after non-convergence raises (`:330-333`). -/
noncomputable def sparseBuckling (ops : EigOps) (K Kg : CSRMatrix ℝ) (free : List ℕ) (m : ℕ)
    (convTol : Option ℝ) : Except PyErr (List (ℝ × List ℝ)) :=
  let T := shiftInvert (restrict K free) (restrict Kg free)
  let k := arpackK m free.length
  if k < 1 then .error .runtimeError
  else
    let vv := ops.eigs T k.toNat
    if vv = [] then .error .runtimeError
    else
      let order := sparseOrder ops m (fun i : Fin vv.length => (vv.get i).1)
      let out := order.map (fun c => (1 / (vv.get c).1, scatterMode K.numRows free (vv.get c).2))
      match convTol with
      | none => .ok out
      | some tol =>
        match order with
        | [] => .error .runtimeError
        | c :: _ => open Classical in
          if tol < ritzResidual T (vv.get c) then .error .runtimeError else .ok out

/-- One returned mode of `bf` (`/repo/feax/solvers/eigen.py:792-817`): the factor (`inf` on the
padding rows), the mode on all DOFs and its free part. -/
structure Mode where
  lam : XR
  full : List ℝ
  phi : List ℝ

/-- `φᵀ K φ` on the free DOFs (`sum(phi * (Kf @ phi.T).T, axis=1)`,
`/repo/feax/solvers/eigen.py:803-805`). -/
noncomputable def energy {n : ℕ} (Kf : Matrix (Fin n) (Fin n) ℝ) (phi : List ℝ) : ℝ :=
  ∑ i : Fin n, phi.getD i 0 * (Kf *ᵥ (fun j : Fin n => phi.getD j 0)) i

/-- Normalisation and padding in `_solve_host` (`/repo/feax/solvers/eigen.py:800-817`). -/
noncomputable def finish (K : CSRMatrix ℝ) (free : List ℕ) (m : ℕ) (found : List (ℝ × List ℝ)) : List Mode :=
  let scaled := found.map (fun p =>
    let phi := gather 0 p.2 free
    let s := 1 / Real.sqrt |energy (restrict K free) phi|
    Mode.mk (.fin p.1) (p.2.map (s * ·)) (phi.map (s * ·)))
  (scaled ++ List.replicate (m - scaled.length)
    (Mode.mk .pinf (List.replicate K.numRows 0) (List.replicate free.length 0))).take m

/-- The `solver` argument of `create_linear_buckling_solver` that is solved on the host.
`dense` takes no keyword: `solver_kw` is ignored (`/repo/feax/solvers/eigen.py:794-799`). -/
inductive HostSolver where
  | dense
  | sparse (convTol : Option ℝ)

/-- `_solve_host` (`/repo/feax/solvers/eigen.py:792-817`). Not modelled: `matfree`. -/
noncomputable def solveHost (ops : EigOps) (s : HostSolver) (free : List ℕ) (m : ℕ) (K Kg : CSRMatrix ℝ) :
    Except PyErr (List Mode) :=
  match s with
  | .dense => .ok (finish K free m (denseBuckling ops K Kg free m denseTol))
  | .sparse convTol => do
    let found ← sparseBuckling ops K Kg free m convTol
    return finish K free m found

/-- `remap[r]` (`/repo/feax/solvers/eigen.py:694-696`): the position of a DOF among the free ones.
Simplification: for a repeated entry of `free` the first position, not the last. -/
def remap (free : List ℕ) (r : ℕ) : Option ℕ := if r ∈ free then some (free.idxOf r) else none

/-- One stored entry of `_outer_cotangent` (`/repo/feax/solvers/eigen.py:697-702`). -/
noncomputable def cotEntry (free : List ℕ) (phi : List (List ℝ)) (w : List XR) (r c : ℕ) : XR :=
  match remap free r, remap free c with
  | some a, some b =>
    ((w.zip phi).map (fun p => (p.1.mul (.fin (p.2.getD a 0))).mul (.fin (p.2.getD b 0)))).foldr XR.add (.fin 0)
  | _, _ => .fin 0

/-- `_outer_cotangent` (`/repo/feax/solvers/eigen.py:684-703`): the `data` of the cotangent matrix. -/
noncomputable def outerCotangent (M : CSRMatrix ℝ) (free : List ℕ) (phi : List (List ℝ)) (w : List XR) : List XR :=
  List.zipWith (cotEntry free phi w) M.rowOfSlot M.indices

/-- `_bwd` of the host solvers (`/repo/feax/solvers/eigen.py:855-861`). -/
noncomputable def hostBwd (free : List ℕ) (K Kg : CSRMatrix ℝ) (modes : List Mode) (lamBar : List ℝ) :
    List XR × List XR :=
  (outerCotangent K free (modes.map (·.phi)) (List.zipWith (fun b (md : Mode) => (XR.fin b).mul md.lam) lamBar modes),
   outerCotangent Kg free (modes.map (·.phi))
    (List.zipWith (fun b (md : Mode) => ((XR.fin b).mul md.lam).mul md.lam) lamBar modes))

/-- `_bwd` of the `cudss` solver (`/repo/feax/solvers/eigen.py:558-566`): the padded modes are guarded
out. -/
noncomputable def cudssBwd (free : List ℕ) (K Kg : CSRMatrix ℝ) (modes : List Mode) (lamBar : List ℝ) :
    List XR × List XR :=
  (outerCotangent K free (modes.map (·.phi))
    (List.zipWith (fun b (md : Mode) => if md.lam.isFin then (XR.fin b).mul md.lam else .fin 0) lamBar modes),
   outerCotangent Kg free (modes.map (·.phi))
    (List.zipWith (fun b (md : Mode) => if md.lam.isFin then ((XR.fin b).mul md.lam).mul md.lam else .fin 0)
      lamBar modes))

/-! ## The closure: pattern capture -/

/-- What the closure keeps of one matrix: `_idx_cache[name]` and `_meta[name]`
(`/repo/feax/solvers/eigen.py:776-777`). -/
structure Pattern where
  indptr : List ℕ
  indices : List ℕ
  numRows : ℕ
  numCols : ℕ
deriving DecidableEq, Repr

/-- The structure of a matrix. -/
def patternOf {R : Type*} (M : CSRMatrix R) : Pattern := ⟨M.indptr, M.indices, M.numRows, M.numCols⟩

/-- `CSRMatrix(data, indptr, indices, shape)` from the cache (`/repo/feax/solvers/eigen.py:825-830`). -/
def Pattern.withData {R : Type*} (p : Pattern) (d : List R) : CSRMatrix R :=
  ⟨d, p.indptr, p.indices, p.numRows, p.numCols⟩

/-- State of the closure: the cached patterns of `K` and `K_g`. -/
abbrev Cache := Option (Pattern × Pattern)

/-- A use of `bf`: an eager call; tracing it under `jax.jit` (the indices are tracers); running a
compiled version (only the data reach the host callback). -/
inductive Use (R : Type*) where
  | eager (K Kg : CSRMatrix R)
  | trace (K Kg : CSRMatrix R)
  | run (K Kg : CSRMatrix R)

/-- One use of `bf` (`/repo/feax/solvers/eigen.py:779-842`): new state and, unless only tracing, the
value. Simplification: the shapes are those of the cached pattern, the two matrices' indices are both
concrete or both tracers. A compiled run before anything was cached cannot happen (tracing raised);
it is a `KeyError` here. -/
def useBf {R β : Type*} (solve : CSRMatrix R → CSRMatrix R → Except PyErr β) (s : Cache) :
    Use R → Cache × Except PyErr (Option β)
  | .eager K Kg =>
    let s' := some (patternOf K, patternOf Kg)
    (s', (solve ((patternOf K).withData K.data) ((patternOf Kg).withData Kg.data)).map some)
  | .trace _ _ =>
    match s with
    | none => (none, .error .valueError)
    | some p => (some p, .ok none)
  | .run K Kg =>
    match s with
    | none => (none, .error .keyError)
    | some p => (some p, (solve (p.1.withData K.data) (p.2.withData Kg.data)).map some)

/-- A history of uses: final state and the list of results. -/
def useAll {R β : Type*} (solve : CSRMatrix R → CSRMatrix R → Except PyErr β) :
    Cache → List (Use R) → Cache × List (Except PyErr (Option β))
  | s, [] => (s, [])
  | s, u :: us =>
    let r := useBf solve s u
    let rest := useAll solve r.1 us
    (rest.1, r.2 :: rest.2)

/-- One eager use of the `cudss` closure (`/repo/feax/solvers/eigen.py:427-432,500-506`): `_capture`
returns at once when a structure has been captured, so the first one stays. -/
def useCudss {R β : Type*} (solve : CSRMatrix R → CSRMatrix R → Except PyErr β) (s : Cache)
    (K Kg : CSRMatrix R) : Cache × Except PyErr β :=
  match s with
  | none => (some (patternOf K, patternOf Kg), solve ((patternOf K).withData K.data) ((patternOf Kg).withData Kg.data))
  | some p => (some p, solve (p.1.withData K.data) (p.2.withData Kg.data))

/-! ## The traced Arnoldi iteration of the `cudss` solver -/

/-- Dot product (`V @ w`, one row). -/
noncomputable def vdot {n : ℕ} (x y : Fin n → ℝ) : ℝ := ∑ i, x i * y i

/-- `V.T @ h` for the rows present (`/repo/feax/solvers/eigen.py:518,520`). -/
noncomputable def vcomb {n : ℕ} (V : List (Fin n → ℝ)) (h : List ℝ) : Fin n → ℝ :=
  (List.zipWith (fun a v => a • v) h V).sum

/-- `where(beta > 1e-30, 1 / beta, 0) * w` (`/repo/feax/solvers/eigen.py:523`). -/
noncomputable def nextRow {n : ℕ} (w : Fin n → ℝ) : Fin n → ℝ :=
  open Classical in (if 1 / 10 ^ 30 < vnorm w then 1 / vnorm w else 0) • w

/-- `step` (`/repo/feax/solvers/eigen.py:514-524`): apply the operator to the last row, orthogonalise
twice, append the column `h1 + h2` with `beta` below it and the new row. The rows not yet computed are
zero in the code and absent here. -/
noncomputable def arnoldiStep {n : ℕ} (T : (Fin n → ℝ) → (Fin n → ℝ))
    (s : List (Fin n → ℝ) × List (List ℝ)) : List (Fin n → ℝ) × List (List ℝ) :=
  let w := T (s.1.getLastD 0)
  let h1 := s.1.map (fun v => vdot v w)
  let w1 := w - vcomb s.1 h1
  let h2 := s.1.map (fun v => vdot v w1)
  let w2 := w1 - vcomb s.1 h2
  (s.1 ++ [nextRow w2], s.2 ++ [List.zipWith (· + ·) h1 h2 ++ [vnorm w2]])

/-- The scan (`/repo/feax/solvers/eigen.py:511-512,526`): rows `V` and the columns of `H`. -/
noncomputable def arnoldi {n : ℕ} (T : (Fin n → ℝ) → (Fin n → ℝ)) (v0 : Fin n → ℝ) (m : ℕ) :
    List (Fin n → ℝ) × List (List ℝ) :=
  (arnoldiStep T)^[m] ([(1 / vnorm v0) • v0], [])

/-- Entry `(i, j)` of `H` (`/repo/feax/solvers/eigen.py:522`): zero below the subdiagonal. -/
def hess (H : List (List ℝ)) (i j : ℕ) : ℝ := (H.getD j []).getD i 0

end Verif.Model.Buckling
