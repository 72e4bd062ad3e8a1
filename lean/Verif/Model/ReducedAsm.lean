import Verif.Model.Periodic
import Verif.Model.AsdOps

/-!
# `feax.solvers.reduced`: the reduced solver with an assembled operator, and its adjoint

The linear solvers themselves are arguments (`Backend`).
-/

namespace Verif.Model

variable {R : Type} [CommRing R] {α β : Type*}

/-- `_to_scipy_pattern(P)` for a BCOO prolongation (`/repo/feax/asd.py:70-73`): every stored entry counts, whatever its
value. Simplification: a negative column (refused by scipy) becomes column `0`; every theorem has the columns in range. -/
def Coo.pattern (P : Coo R) : StoredPattern := ⟨P.rows, P.cols, P.entries.map fun e => (e.1, e.2.1.toNat, true)⟩

/-- `R_pat` (`/repo/feax/solvers/reduced.py:296`). -/
def reducedPattern (d : Discretization R α β) (P : Coo R) : Except PyErr BoolCsr := do
  let conn ← Asd.connectivityPattern (decide (d.p.view = .full)) d.p.n d.p.maps.indptr d.p.maps.indices
  Asd.reducedOperatorPattern P.pattern (Asd.storedOf conn)

/-- Construction of the solver (`/repo/feax/solvers/reduced.py:175-181, 296-297`): validation, then the pattern when one of
the two sides asks for an assembled operator (direct or AMG options). -/
def createReducedA (d : Discretization R α β) (P : Coo R) (bc0 : DirichletBC R) (fwd adj : Bool) :
    Except PyErr (Option BoolCsr) :=
  if badBcRows P bc0.rows ≠ [] then .error .valueError
  else if fwd || adj then (reducedPattern d P).map some
  else .ok none

/-- `op` of one side (`/repo/feax/solvers/reduced.py:213-214, 237-238, 307-310, 315, 334`): the product
`v ↦ Pᵀ(J(Pv))`, or the matrix probed from it (`operator_assembler` in its default mode `"fwd"`, which evaluates no
reverse product). -/
def sideOperator (d : Discretization R α β) (color : List ℕ → List ℕ → ℕ → ℕ → Asd.Coloring) (P : Coo R)
    (pat : Option BoolCsr) (assembled : Bool) (bc : DirichletBC R) (sol : List R) : Except PyErr (Operator R) :=
  let matvec := fun v => P.rmatvec (d.matfreeAt bc true sol (P.matvec v))
  match assembled, pat with
  | true, some q => (Asd.operatorAssembler color (Asd.storedOf q) matvec fun _ => []).map .csr
  | _, _ => .ok (.fn matvec)

/-- Construction followed by the operator of one side. -/
def reducedOperatorA (d : Discretization R α β) (color : List ℕ → List ℕ → ℕ → ℕ → Asd.Coloring) (P : Coo R)
    (bc0 : DirichletBC R) (fwd adj assembled : Bool) (bc : DirichletBC R) (sol : List R) : Except PyErr (Operator R) := do
  let pat ← createReducedA d P bc0 fwd adj
  sideOperator d color P pat assembled bc sol

/-- `reduced_solve_fn` and `solver_wrapper` (`/repo/feax/solvers/reduced.py:205-219, 267-270, 312-317, 359-362`). The
backend of a direct solve gets no starting point; zero here. -/
def reducedSolverA (d : Discretization R α β) (backend : Backend R) (color : List ℕ → List ℕ → ℕ → ℕ → Asd.Coloring)
    (P : Coo R) (bc0 : DirichletBC R) (fwd adj : Bool) (guess : Option (List R)) (bc : Option (DirichletBC R)) :
    Except PyErr (List R) := do
  let bc := bc.getD bc0
  let guess := guess.getD (zeroLikeGuess d.p.n bc0)
  let op ← reducedOperatorA d color P bc0 fwd adj fwd bc guess
  let sol := backend op (vneg (P.rmatvec (d.resBc bc guess))) (List.replicate P.cols 0)
  .ok (vadd guess (P.matvec sol))

/-- The adjoint vector of `f_bwd` (`/repo/feax/solvers/reduced.py:229-243, 327-336`). -/
def reducedAdjointA (d : Discretization R α β) (backend : Backend R) (color : List ℕ → List ℕ → ℕ → ℕ → Asd.Coloring)
    (P : Coo R) (bc0 : DirichletBC R) (fwd adj : Bool) (bc : Option (DirichletBC R)) (sol v : List R) :
    Except PyErr (List R) := do
  let op ← reducedOperatorA d color P bc0 fwd adj adj (bc.getD bc0) sol
  .ok (P.matvec (backend op (P.rmatvec v) (List.replicate P.cols 0)))

/-- The cotangent `f_bwd` returns for a traced parameter (`/repo/feax/solvers/reduced.py:245-260, 338-352`): minus the
product of the adjoint with the derivative `dres` of the boundary-modified residual in that parameter at fixed unknowns. -/
def reducedCotangent (lam dres : List R) : R := -(List.zipWith (· * ·) lam dres).sum

end Verif.Model
