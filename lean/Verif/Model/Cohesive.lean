import Verif.Model.Layout
import Verif.Model.Solution
import Mathlib.Analysis.SpecialFunctions.Exp
import Mathlib.Analysis.SpecialFunctions.Sqrt

/-!
# `feax.mechanics.cohesive`: traction-separation laws and interfaces

Arithmetic is exact: numbers are elements of an ordered field (the real numbers where `exp` or `sqrt` occur). The
potentials act elementwise, so they are modelled for one node.
-/

namespace Verif.Model

section field
variable {K : Type*} [Field K] [LinearOrder K]

/-- The part both potentials share (`/repo/feax/mechanics/cohesive.py:93-98`, `142-151`): `load` while the opening is
at its maximum, the quadratic through the origin otherwise. -/
def cohesiveLaw (load : K → K) (delta deltaMax : K) : K :=
  let kSecant := if 1 / 10 ^ 15 < deltaMax then load deltaMax / (deltaMax ^ 2 + 1 / 10 ^ 30) else 0
  let unload := kSecant * delta ^ 2
  if deltaMax - 1 / 10 ^ 15 ≤ delta then load delta else unload

/-- `phi_load` of `bilinear_potential` (`/repo/feax/mechanics/cohesive.py:132-141`). -/
def bilinearLoad (gamma sigmaC delta : K) : K :=
  let deltaF := 2 * gamma / sigmaC
  let delta0 := 2 * gamma / (sigmaC * deltaF)
  let k0 := sigmaC / delta0
  if delta < delta0 then 1 / 2 * k0 * delta ^ 2
  else if delta < deltaF then gamma - 1 / 2 * sigmaC * (deltaF - delta) ^ 2 / (deltaF - delta0 + 1 / 10 ^ 30)
  else gamma

/-- `bilinear_potential` (`/repo/feax/mechanics/cohesive.py:101-151`). -/
def bilinearPotential (gamma sigmaC delta deltaMax : K) : K := cohesiveLaw (bilinearLoad gamma sigmaC) delta deltaMax

/-- `compute_trapezoidal_weights` (`/repo/feax/mechanics/cohesive.py:158-180`). -/
def trapezoidalWeights (x : List K) : List K :=
  (List.range x.length).map fun i =>
    let left := if 0 < i then (x.getD i 0 - x.getD (i - 1) 0) / 2 else 0
    let right := if i < x.length - 1 then (x.getD (i + 1) 0 - x.getD i 0) / 2 else 0
    left + right

end field

/-! ### Lumped area weights -/

section lumped
variable {K : Type*} [Field K]

/-- `onp.cross` of three-vectors (`/repo/feax/mechanics/cohesive.py:214`). -/
def cross3 (a b : List K) : List K :=
  [a.getD 1 0 * b.getD 2 0 - a.getD 2 0 * b.getD 1 0, a.getD 2 0 * b.getD 0 0 - a.getD 0 0 * b.getD 2 0,
    a.getD 0 0 * b.getD 1 0 - a.getD 1 0 * b.getD 0 0]

/-- `node_to_local.get(nid)` (`/repo/feax/mechanics/cohesive.py:207`, `216`): in a dictionary built by a comprehension
the last entry with a given key stays. -/
def nodeToLocal (nodeIds : List ℕ) (nid : ℕ) : Option ℕ :=
  nodeIds.zipIdx.foldl (fun found e => if e.1 = nid then some e.2 else found) none

/-- The area of one quad (`/repo/feax/mechanics/cohesive.py:211-214`). Simplification: node numbers are in range. -/
def quadArea (norm : List K → K) (coords : List (List K)) (quad : List ℕ) : K :=
  let pts := quad.map fun n => coords.getD n []
  let d1 := List.zipWith (· - ·) (pts.getD 2 []) (pts.getD 0 [])
  let d2 := List.zipWith (· - ·) (pts.getD 3 []) (pts.getD 1 [])
  1 / 2 * norm (cross3 d1 d2)

/-- The loop of `compute_lumped_area_weights` (`/repo/feax/mechanics/cohesive.py:207-220`); `norm` is
`onp.linalg.norm`. -/
def lumpedAreaWeights (norm : List K → K) (nodeIds : List ℕ) (coords : List (List K)) (quads : List (List ℕ)) : List K :=
  quads.foldl (fun w quad =>
    let area := quadArea norm coords quad
    quad.foldl (fun w nid =>
      match nodeToLocal nodeIds nid with
      | some idx => w.set idx (w.getD idx 0 + area / 4)
      | none => w) w) (List.replicate nodeIds.length 0)

end lumped

noncomputable section real

/-- `phi_load` of `exponential_potential` (`/repo/feax/mechanics/cohesive.py:89-91`). -/
def exponentialLoad (gamma sigmaC delta : ℝ) : ℝ :=
  let deltaC := gamma / (Real.exp 1 * sigmaC)
  gamma * (1 - (1 + delta / deltaC) * Real.exp (-delta / deltaC))

/-- `exponential_potential` (`/repo/feax/mechanics/cohesive.py:56-98`). -/
def exponentialPotential (gamma sigmaC delta deltaMax : ℝ) : ℝ := cohesiveLaw (exponentialLoad gamma sigmaC) delta deltaMax

/-- `CohesiveInterface` (`/repo/feax/mechanics/cohesive.py:266-274`). -/
structure CohesiveInterface where
  top : List ℤ
  bottom : List ℤ
  weights : List ℝ
  normals : List (List ℝ)
  vec : ℕ
  beta : ℝ

/-- `CohesiveInterface.__init__` (`/repo/feax/mechanics/cohesive.py:266-280`). -/
def CohesiveInterface.create (top bottom : List ℤ) (weights : List ℝ) (normals : List (List ℝ)) (vec : ℕ) (beta : ℝ) :
    Except PyErr CohesiveInterface :=
  if normals.length = top.length ∧ (∀ row ∈ normals, row.length = vec) then .ok ⟨top, bottom, weights, normals, vec, beta⟩
  else .error .valueError

/-- `CohesiveInterface.from_axis` (`/repo/feax/mechanics/cohesive.py:282-298`): a negative axis counts from the end, an axis
outside the array is an `IndexError`. -/
def CohesiveInterface.fromAxis (top bottom : List ℤ) (weights : List ℝ) (axis : ℤ) (vec : ℕ) (beta : ℝ) :
    Except PyErr CohesiveInterface :=
  let a := if axis < 0 then axis + vec else axis
  if 0 ≤ a ∧ a < vec then
    CohesiveInterface.create top bottom weights (top.map fun _ => (List.replicate vec 0).set a.toNat 1) vec beta
  else .error .indexError

/-- `u_flat.reshape(-1, vec)` (`/repo/feax/mechanics/cohesive.py:313`, `394`). -/
def nodeRows (vec : ℕ) (u : List ℝ) : Except PyErr (List (List ℝ)) :=
  if vec = 0 ∨ u.length % vec ≠ 0 then .error .typeError else .ok (reshapeRows (u.length / vec) vec u)

/-- `u[top] - u[bottom]` (`/repo/feax/mechanics/cohesive.py:314`, `395`): JAX wraps negative node numbers and clamps those out
of range. Simplification: both lists have one entry per pair (a single entry would be broadcast). -/
def CohesiveInterface.jump (c : CohesiveInterface) (u : List ℝ) : Except PyErr (List (List ℝ)) := do
  let rows ← nodeRows c.vec u
  return List.zipWith (fun t b => List.zipWith (· - ·) (rows.getD (Solution.jaxIndex rows.length t) []) (rows.getD (Solution.jaxIndex rows.length b) []))
    c.top c.bottom

/-- `delta_n` of one pair (`/repo/feax/mechanics/cohesive.py:354`, `361`, `397`). -/
def normalOpening (jump normal : List ℝ) : ℝ := (List.zipWith (· * ·) jump normal).sum

/-- `jump_t` of one pair (`/repo/feax/mechanics/cohesive.py:355`, `362`, `398`). -/
def tangentialJump (jump normal : List ℝ) : List ℝ :=
  List.zipWith (fun j n => j - normalOpening jump normal * n) jump normal

/-- The effective opening of one pair (`/repo/feax/mechanics/cohesive.py:359-366`, `397-401`). -/
def effectiveOpening (beta : ℝ) (jump normal : List ℝ) : ℝ :=
  let deltaN := normalOpening jump normal
  let deltaTSq := ((tangentialJump jump normal).map fun x => x ^ 2).sum
  let deltaNPos := max deltaN 0
  Real.sqrt (deltaNPos ^ 2 + beta ^ 2 * deltaTSq + 1 / 10 ^ 30)

/-- `get_opening` (`/repo/feax/mechanics/cohesive.py:316-336`). -/
def CohesiveInterface.opening (c : CohesiveInterface) (u : List ℝ) : Except PyErr (List ℝ) := do
  let jump ← c.jump u
  return List.zipWith (effectiveOpening c.beta) jump c.normals

/-- `get_opening_components` (`/repo/feax/mechanics/cohesive.py:338-357`): normal and tangential opening per pair. -/
def CohesiveInterface.openingComponents (c : CohesiveInterface) (u : List ℝ) : Except PyErr (List (ℝ × ℝ)) := do
  let jump ← c.jump u
  return List.zipWith (fun j n => (normalOpening j n, Real.sqrt ((tangentialJump j n).map fun x => x ^ 2).sum)) jump c.normals

/-- `energy_fn` (`/repo/feax/mechanics/cohesive.py:393-404`). Simplification: `delta_max` and `weights` have one entry per
pair. -/
def CohesiveInterface.energy (c : CohesiveInterface) (potential : ℝ → ℝ → ℝ) (u deltaMax : List ℝ) : Except PyErr ℝ := do
  let delta ← c.opening u
  let phi := List.zipWith potential delta deltaMax
  return (List.zipWith (· * ·) phi c.weights).sum

end real

end Verif.Model
