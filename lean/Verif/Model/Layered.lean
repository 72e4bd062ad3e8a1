import Verif.Model.Shell
import Verif.Model.Elements
import Mathlib.LinearAlgebra.Matrix.NonsingularInverse

/-!
# Layered solid elements (`feax.mechanics.layered_solid_element`)

Exact arithmetic replaces floating point. `numpy.polynomial.legendre.leggauss` is a function given from outside: a list of
points and weights on `[-1, 1]`.
-/

namespace Verif.Model

noncomputable section

/-- `_gauss1d_unit` (`/repo/feax/mechanics/layered_solid_element.py:246-249`). -/
def gaussUnit (rule : List (ℝ × ℝ)) : List (ℝ × ℝ) := rule.map fun p => (1 / 2 * (p.1 + 1), 1 / 2 * p.2)

/-- `zeta_if` (`/repo/feax/mechanics/layered_solid_element.py:273`). -/
def zetaFaces (ts : List ℝ) : List ℝ := 0 :: (runningSum 0 ts).map fun c => c / ts.sum

/-- A reference quadrature point with its weight and its ply. -/
structure LayeredPoint where
  x : ℝ
  y : ℝ
  z : ℝ
  w : ℝ
  ply : ℕ

/-- `layered_reference_quadrature` (`/repo/feax/mechanics/layered_solid_element.py:252-291`), with the rules that `leggauss`
returns for the in-plane and the thickness direction. -/
def layeredQuadrature (ts : List ℝ) (inplane thick : List (ℝ × ℝ)) : List LayeredPoint :=
  let f := zetaFaces ts
  (List.range ts.length).flatMap fun k =>
    let a := f.getD k 0
    let b := f.getD (k + 1) 0
    (gaussUnit thick).flatMap fun gz => (gaussUnit inplane).flatMap fun gx => (gaussUnit inplane).map fun gy =>
      ⟨gx.1, gy.1, a + (b - a) * gz.1, gx.2 * gy.2 * ((b - a) * gz.2), k⟩

/-- Nodal vectors of an element with eight nodes. -/
abbrev HexNodes := Fin 8 → Fin 3 → ℝ

/-- `_tabulate_reference("HEX8", …)` at one point (`/repo/feax/mechanics/layered_solid_element.py:294-305`). -/
def hexGrad (x y z : ℝ) : HexNodes := fun a i => (shapeGradAt .HEX8 x y z i).getD a 0

/-- `_tabulate_reference_vals("HEX8", …)` at one point (`/repo/feax/mechanics/layered_solid_element.py:308-318`). -/
def hexVals (x y z : ℝ) : Fin 8 → ℝ := fun a => (shapeValuesAt .HEX8 x y z).getD a 0

/-- What the element kernels read at a quadrature point: reference gradients, weight, stiffness, and the thermal strain if
there is one. -/
structure LayeredQuad where
  dN : HexNodes
  w : ℝ
  C : Arr4 ℝ 3
  eth : Option (Arr2 ℝ 3)

/-- `J_iI = Σ_a x_ai dN_a/dξ_I` (`/repo/feax/mechanics/layered_solid_element.py:382`, `521`, `710`, `806`). -/
def hexJac (nodes dN : HexNodes) : Matrix (Fin 3) (Fin 3) ℝ := fun i I => ∑ a, nodes a i * dN a I

/-- `dN_a/dx_i` (`/repo/feax/mechanics/layered_solid_element.py:386`, `523`, `713`, `807`). -/
def hexPhysGrad (nodes dN : HexNodes) : HexNodes :=
  let inv : Matrix (Fin 3) (Fin 3) ℝ := (hexJac nodes dN)⁻¹
  fun a i => ∑ I, dN a I * inv I i

/-- `grad_u[i, j] = Σ_a u_ai dN_a/dx_j` (`/repo/feax/mechanics/layered_solid_element.py:389`, `524`, `716`, `808`). -/
def hexGradU (u g : HexNodes) : Arr2 ℝ 3 := fun i j => ∑ a, u a i * g a j

/-- `eps` (`/repo/feax/mechanics/layered_solid_element.py:390`, `525`, `809`). -/
def hexStrain (u g : HexNodes) : Arr2 ℝ 3 := fun i j => 1 / 2 * (hexGradU u g i j + hexGradU u g j i)

/-- `sigma` at one point (`/repo/feax/mechanics/layered_solid_element.py:391`, `538`, `545`). -/
def layeredStress (nodes u : HexNodes) (q : LayeredQuad) : Arr2 ℝ 3 :=
  let eps := hexStrain u (hexPhysGrad nodes q.dN)
  match q.eth with
  | none => ddot q.C eps
  | some e => ddot q.C fun i j => eps i j - e i j

/-- The kernel of `LayeredSolid` and `OrientedLayeredSolid` (`/repo/feax/mechanics/layered_solid_element.py:376-398`,
`519-548`), before flattening. -/
def layeredKernel (qs : List LayeredQuad) (nodes u : HexNodes) : HexNodes := fun a i =>
  (qs.map fun q => ∑ j, q.w * (hexJac nodes q.dN).det * layeredStress nodes u q i j * hexPhysGrad nodes q.dN a j).sum

/-- `layered_quad_stress` for one cell (`/repo/feax/mechanics/layered_solid_element.py:771-818`). -/
def layeredQuadStress (qs : List LayeredQuad) (nodes u : HexNodes) : List (Arr2 ℝ 3) :=
  qs.map fun q =>
    let eps := hexStrain u (hexPhysGrad nodes q.dN)
    match q.eth with
    | none => ddot q.C eps
    | some e => ddot q.C fun i j => eps i j - e i j

/-- The kernel of `GeometricStiffnessSolid` (`/repo/feax/mechanics/layered_solid_element.py:707-722`); `s0` is the prestress
at each point. -/
def geometricKernel (qs : List (HexNodes × ℝ × Arr2 ℝ 3)) (nodes u : HexNodes) : HexNodes := fun a c =>
  (qs.map fun q =>
    let g := hexPhysGrad nodes q.1
    ∑ i, q.2.1 * (hexJac nodes q.1).det * g a i * ∑ j, q.2.2 i j * hexGradU u g c j).sum

/-- `_broadcast_plies` (`/repo/feax/mechanics/layered_solid_element.py:234-243`). -/
def broadcastPlies (C : PerLayer (Arr4 ℝ 3)) (n : ℕ) : Except PyErr (List (Arr4 ℝ 3)) :=
  match C with
  | .one c => .ok (List.replicate n c)
  | .each cs => if cs.length ≠ n then .error .valueError else .ok cs

/-- `create_layered_solid`: the quadrature data of every element (`/repo/feax/mechanics/layered_solid_element.py:450-480`).
The mesh and the boundaries are left out. -/
def createLayeredSolid (ele : String) (C : PerLayer (Arr4 ℝ 3)) (angles thick : List ℝ) (normal : Fin 3 → ℝ)
    (inplane thickness : List (ℝ × ℝ)) : Except PyErr (List LayeredQuad) := do
  if ele ≠ "HEX8" then throw .notImplemented
  let n := angles.length
  if thick.length ≠ n then throw .valueError
  let cs ← broadcastPlies C n
  let len := Real.sqrt (∑ i, normal i ^ 2)
  let nrm : Fin 3 → ℝ := fun i => normal i / len
  let rot := List.zipWith (fun c th => rotate4 c (rotationMatrixAxis th nrm)) cs angles
  return (layeredQuadrature thick inplane thickness).map fun p => ⟨hexGrad p.x p.y p.z, p.w, rot.getD p.ply 0, none⟩

/-- `create_oriented_layered_solid`: the quadrature data of one cell whose plies have stiffnesses `C` and, if given, expansions
`cte` (`/repo/feax/mechanics/layered_solid_element.py:632-674`). -/
def createOrientedLayeredSolid (ele : String) (C : List (Arr4 ℝ 3)) (thick : List ℝ) (inplane thickness : List (ℝ × ℝ))
    (withThermal : Bool) (cte : Option (List (Arr2 ℝ 3))) : Except PyErr (List LayeredQuad) := do
  if ele ≠ "HEX8" then throw .notImplemented
  if thick.length ≠ C.length then throw .valueError
  let pts := layeredQuadrature thick inplane thickness
  if withThermal then
    match cte with
    | some al =>
      if al.length ≠ C.length then throw .valueError
      return pts.map fun p => ⟨hexGrad p.x p.y p.z, p.w, C.getD p.ply 0, some (al.getD p.ply 0)⟩
    | none => return pts.map fun p => ⟨hexGrad p.x p.y p.z, p.w, C.getD p.ply 0, some 0⟩
  else return pts.map fun p => ⟨hexGrad p.x p.y p.z, p.w, C.getD p.ply 0, none⟩

/-- `expand_cte_to_quad` for one cell (`/repo/feax/mechanics/layered_solid_element.py:551-574`); JAX clamps the index. -/
def expandCte (cte : List (Arr2 ℝ 3)) (thick : List ℝ) (inplane thickness : List (ℝ × ℝ)) : List (Arr2 ℝ 3) :=
  (layeredQuadrature thick inplane thickness).map fun p => cte.getD (min p.ply (cte.length - 1)) 0

/-- `interpolate_nodal_to_layered_quad` for one cell (`/repo/feax/mechanics/layered_solid_element.py:321-345`). -/
def interpolateToQuad (nodal : Fin 8 → ℝ) (thick : List ℝ) (inplane thickness : List (ℝ × ℝ)) : List ℝ :=
  (layeredQuadrature thick inplane thickness).map fun p => ∑ a, hexVals p.x p.y p.z a * nodal a

end

end Verif.Model
