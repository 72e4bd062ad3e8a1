import Verif.Model.Solve
import Mathlib.Algebra.BigOperators.Group.Finset.Basic

/-!
# Specification of linear solves with Dirichlet conditions
-/

namespace Verif.Spec

open Verif.Model

variable {R : Type*} [CommRing R]

/-- The matrix a stored operator stands for: the entries themselves, or, when only one triangle is
stored, the symmetric matrix with that triangle. -/
def completed (view : MatrixView) (e : ℕ → ℕ → R) (i j : ℕ) : R :=
  match view with
  | .full => e i j
  | .upper => e (min i j) (max i j)
  | .lower => e (max i j) (min i j)

/-- `x` solves the system `op x = b` of size `n`: the contract of a linear-algebra backend. -/
def Solves (view : MatrixView) (n : ℕ) : Operator R → List R → List R → Prop
  | .csr A, b, x => x.length = n ∧
      ∀ i < n, ∑ j ∈ Finset.range n, completed view A.todense i j * x.getD j 0 = b.getD i 0
  | .fn f, b, x => x.length = n ∧ ∀ i < n, (f x).getD i 0 = b.getD i 0

/-- `u` has the prescribed values. -/
def MeetsBC (bc : DirichletBC R) (u : List R) : Prop :=
  ∀ k < bc.rows.length, u.getD (bc.rows.getD k 0) 0 = bc.vals.getD k 0

/-- The Jacobian of the boundary-modified residual: identity rows at constrained DOFs, the tangent `K`
elsewhere (columns kept). -/
def rowEliminated (rows : List ℕ) (K : ℕ → ℕ → R) (i j : ℕ) : R :=
  if i ∈ rows then (if i = j then 1 else 0) else K i j

end Verif.Spec
