import Verif.Model.Solve
import Verif.Model.Options
import Mathlib.Algebra.Field.Defs

/-!
# `feax.solvers.linear`: one factorisation for the forward and the adjoint solve; the Jacobi preconditioner
-/

namespace Verif.Model

variable {R : Type*} {α β : Type*}

/-- `spineax.cudss.factor_solve` (used at `/repo/feax/solvers/linear.py:376`, `381-384`, `430`), abstract: a
factorisation token of an assembled matrix, given its declared type and storage view, and a solve with it. -/
structure TokenLib (R Tok : Type*) where
  factorize : CudssType → MatrixView → CSRMatrix R → Tok
  solveWith : Tok → List R → List R

/-- `_reuse_factor` (`/repo/feax/solvers/linear.py:364-373`): both sides direct, the forward one cuDSS with
`reuse_factorization`, its declared matrix type symmetric (1) or SPD (3). -/
def reuseFactor : LinOpts → LinOpts → Bool
  | .direct f, .direct _ =>
    decide (f.solver = "cudss") && f.reuse && decide (f.cudss.matrixType = .symmetric ∨ f.cudss.matrixType = .spd)
  | _, _ => false

/-- `isinstance(opts, DirectSolverOptions)` (`/repo/feax/solvers/linear.py:310-311`). -/
def LinOpts.isDirect : LinOpts → Bool
  | .direct _ => true
  | _ => false

/-- The cuDSS settings a direct options object carries (`/repo/feax/solvers/linear.py:369-372`). -/
def LinOpts.cudssOf : LinOpts → CudssOptions
  | .direct o => o.cudss
  | _ => {}

section
variable [CommRing R] {Tok : Type*}

/-- `_factor_and_solve` (`/repo/feax/solvers/linear.py:378-386`). -/
def factorAndSolve (d : Discretization R α β) (lib : TokenLib R Tok) (cud : CudssOptions) (symmetric : Bool)
    (bc : DirichletBC R) (guess : List R) : List R × Tok :=
  let res := d.resBc bc guess
  let op := d.jacBcAt bc symmetric guess
  let token := lib.factorize cud.matrixType cud.matrixView op
  (vadd guess (lib.solveWith token (vneg res)), token)

/-- `f_fwd` (`/repo/feax/solvers/linear.py:419-424`): the solution and what is kept for the reverse pass (the token, when
there is one; parameters, conditions and structure are the same objects on both passes). -/
def linearForward (d : Discretization R α β) (lib : TokenLib R Tok) (backend : Backend R) (fwd adj : LinOpts)
    (symmetric : Bool) (bc : DirichletBC R) (guess : List R) : List R × Option Tok :=
  if reuseFactor fwd adj then
    let st := factorAndSolve d lib fwd.cudssOf symmetric bc guess
    (st.1, some st.2)
  else (linearStep d backend fwd.isDirect symmetric bc guess, none)

/-- The adjoint vector of `f_bwd` (`/repo/feax/solvers/linear.py:426-462`). -/
def linearReverse (d : Discretization R α β) (lib : TokenLib R Tok) (adjBackend : Backend R) (adj : LinOpts)
    (symmetric : Bool) (bc : DirichletBC R) (saved : List R × Option Tok) (v : List R) : List R :=
  match saved.2 with
  | some token => lib.solveWith token v
  | none => linearAdjoint d adjBackend adj.isDirect symmetric bc saved.1 v

end

/-! ### The Jacobi preconditioner -/

/-- `_extract_sparse_diagonal` of a BCOO matrix (`/repo/feax/solvers/common.py:351-361`): off-diagonal entries are sent
to the slot `n`, outside the array, where the scatter drops them. -/
def bcooDiagonal {K : Type*} [AddCommMonoid K] (n : ℕ) (idx : List (ℕ × ℕ)) (data : List K) : List K :=
  segmentSum (List.zipWith (fun (rc : ℕ × ℕ) x => if rc.1 = rc.2 then x else 0) idx data)
    (idx.map fun rc => if rc.1 = rc.2 then rc.1 else n) n

/-- `create_jacobi_preconditioner` (`/repo/feax/solvers/common.py:86-94`) from the extracted diagonal. -/
def jacobiApply {K : Type*} [Field K] (diag : List K) (shift : K) (x : List K) : List K :=
  List.zipWith (· * ·) (diag.map fun a => 1 / (a + shift)) x

/-- A preconditioner handed to a Krylov method: the user's, or Jacobi's (diagonal and shift). -/
inductive Precond (K : Type*) where
  | given (id : ℕ)
  | jacobi (diag : List K) (shift : K)

/-- The operator of an iterative solve as `choose_preconditioner` sees it: a callable, or a matrix with a diagonal. -/
inductive KrylovOperator (K : Type*) where
  | callable (f : List K → List K)
  | csr (A : CSRMatrix K)
  | bcoo (n : ℕ) (idx : List (ℕ × ℕ)) (data : List K)

/-- `choose_preconditioner` (`/repo/feax/solvers/common.py:221-227`). -/
def choosePrecond {K : Type*} [Field K] (o : KrylovOptions) (A : KrylovOperator K) : Option (Precond K) :=
  if o.useJacobi && o.preconditioner.isNone then
    match A with
    | .callable _ => none
    | .csr A => some (.jacobi A.diagonal (o.jacobiShift : K))
    | .bcoo n idx data => some (.jacobi (bcooDiagonal n idx data) (o.jacobiShift : K))
  else o.preconditioner.map .given

end Verif.Model
