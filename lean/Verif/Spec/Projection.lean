import Mathlib.Algebra.Field.Defs
import Mathlib.Algebra.BigOperators.Group.List.Basic
import Mathlib.Order.Defs.LinearOrder

/-!
# Specification of projections: solid entries and volume fraction
-/

namespace Verif.Spec

variable {K : Type*} [Field K] [LinearOrder K]

/-- Number of entries above a threshold. -/
def above (rho : List K) (t : K) : ℕ := rho.countP (fun x => decide (t < x))

/-- Number of entries at a threshold. -/
def tied (rho : List K) (t : K) : ℕ := rho.countP (fun x => decide (x = t))

/-- Mean of the entries, the volume fraction of a density. -/
def mean (rho : List K) : K := rho.sum / (rho.length : K)

end Verif.Spec
