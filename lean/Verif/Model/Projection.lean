import Mathlib.Algebra.Order.Floor.Defs
import Mathlib.Algebra.Order.Floor.Ring
import Mathlib.Algebra.Field.Defs

/-!
# Projection and threshold (`/repo/feax/gene/filters.py:362-420`)
-/

namespace Verif.Model

section
variable {K : Type*} [Field K] [LinearOrder K] [FloorRing K]

/-- `heaviside_projection` (`/repo/feax/gene/filters.py:367-391`), entry by entry; the hyperbolic tangent is a parameter. -/
def heaviside (tanh : K → K) (beta threshold : K) (rho : List K) : List K :=
  rho.map fun x => (tanh (beta * (x - threshold)) + 1) / 2

/-- An index clipped to `0 .. n - 1` (`lax.clamp` in `jax.numpy.percentile`). -/
def clipIndex (n : ℕ) (i : ℤ) : ℕ := min i.toNat (n - 1)

/-- `np.percentile(rho, q)` (called at `/repo/feax/gene/filters.py:419`), the default linear rule of `jax.numpy`: sort, place
`q / 100` between the first and last position, and interpolate between the entries below and above.
Simplification: `rho` is one-dimensional, not empty and without NaN. -/
def percentile (rho : List K) (q : K) : K :=
  let a := rho.mergeSort (fun x y => decide (x ≤ y))
  let p := q / 100 * ((rho.length - 1 : ℕ) : K)
  let w := p - (⌊p⌋ : K)
  a.getD (clipIndex rho.length ⌊p⌋) 0 * (1 - w) + a.getD (clipIndex rho.length ⌈p⌉) 0 * w

/-- `compute_volume_fraction_threshold` (`/repo/feax/gene/filters.py:394-420`). -/
def volumeThreshold (rho : List K) (target : K) : K := percentile rho ((1 - target) * 100)

end

end Verif.Model
