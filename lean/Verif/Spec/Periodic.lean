import Verif.Model.Periodic

/-!
# Specification of periodic pairings
-/

namespace Verif.Spec

open Verif.Model

variable {Pt : Type*}

/-- Pairing `bc` ties slave node `j` to master node `i`. -/
def PairedNodes (near : Pt → Pt → Bool) (points : List Pt) (bc : PeriodicPairing Pt) (i j : ℕ) : Prop :=
  ∃ pi pj, points[i]? = some pi ∧ points[j]? = some pj ∧ bc.master pi = true ∧ bc.slave pj = true ∧
    near (bc.mapping pi) pj = true

/-- Some pairing ties DOF `j` (slave) to DOF `i` (master). -/
def PairedDofs (near : Pt → Pt → Bool) (points : List Pt) (vec : ℕ) (pairings : List (PeriodicPairing Pt))
    (i j : ℕ) : Prop :=
  ∃ bc ∈ pairings, ∃ a b, PairedNodes near points bc a b ∧ i = a * vec + bc.vec ∧ j = b * vec + bc.vec

/-- The slaves among the first `N` DOFs. -/
def slaveDofs (near : Pt → Pt → Bool) (points : List Pt) (vec : ℕ) (pairings : List (PeriodicPairing Pt))
    (N : ℕ) : Set ℕ :=
  {j | j < N ∧ ∃ i, PairedDofs near points vec pairings i j}

end Verif.Spec
