import Verif.Model.Kernels
import Verif.Model.Solution
import Mathlib.Algebra.Field.Defs

/-!
# `feax.gene.responses`: compliance and volume fraction

Only variable 0 of the problem is used by these functions. A loaded boundary is a list of faces, a face
a list of quadrature points (`QPoint`; only `fe[0]` is read), with the cell each face belongs to.
-/

namespace Verif.Model

/-- What the caller passes as `surface_load_params` (`/repo/feax/gene/responses.py:10`, `40-46`). A list, a
tuple and a `jax.Array` are sequences for the `isinstance` test; a `numpy.ndarray` is not. -/
inductive LoadParams (K : Type*) where
  | none
  | scalar (x : K)
  | seq (xs : List K)
  | numpyArray (xs : List K)

section ring
variable {K : Type*} [CommRing K]

/-- Parameter handed to the map of each surface (`/repo/feax/gene/responses.py:40-46`); a parameter is a
list of numbers, of length one for a scalar. -/
def loadParams (num : ℕ) : LoadParams K → Except PyErr (List (List K))
  | .none => .ok (List.replicate num [1])
  | .scalar x => .ok (List.replicate num [x])
  | .seq xs => if xs.length ≠ num then .error .valueError else .ok (xs.map (fun x => [x]))
  | .numpyArray xs => .ok (List.replicate num xs)

/-- `displacement` (`/repo/feax/gene/responses.py:75`, `158`). -/
def displacement (v : Var) (sol : List K) : List (List K) :=
  reshapeRows v.numNodes v.vec (sol.take (v.numNodes * v.vec))

/-- A surface map: value, position, parameters to traction. -/
abbrev SurfaceMap (K : Type*) := List K → List K → List K → List K

/-- Contribution of one quadrature point of a face whose nodal displacements are `cellU`
(`/repo/feax/gene/responses.py:83-98`, `165-182`). -/
def compliancePoint (v : Var) (t : SurfaceMap K) (cellU : List (List K)) (q : QPoint K) : K :=
  let f := q.fe.getD 0 ⟨[], [], 0⟩
  let u := opEval v.vec cellU f.vals
  let traction := t u q.x q.iv
  ∑ c ∈ Finset.range v.vec, -(traction.getD c 0) * u.getD c 0 * f.jxw

/-- The loop over the surfaces (`/repo/feax/gene/responses.py:79-99`, `162-183`): surfaces without a map get
the zero map (54, 139). -/
def complianceOn (v : Var) (maps : List (SurfaceMap K)) (faces : List (List (List (QPoint K))))
    (faceCells : List (List ℕ)) (sol : List K) : K :=
  let u := displacement v sol
  (faces.zipIdx.map (fun bd => ((bd.1.zip (faceCells.getD bd.2 [])).map (fun face =>
    let cellU := (v.cells.getD face.2 []).map (fun node => u.getD node [])
    (face.1.map (compliancePoint v (maps.getD bd.2 (fun u _ _ => u.map (fun _ => 0))) cellU)).sum)).sum)).sum

/-- One parameter for every point of a surface. -/
def withParam (faces : List (List (QPoint K))) (p : List K) : List (List (QPoint K)) :=
  faces.map (fun pts => pts.map (fun q => { q with iv := p }))

/-- `create_compliance_fn(problem, surface_load_params)(sol)` (`/repo/feax/gene/responses.py:10-103`). -/
def complianceFn (v : Var) (maps : List (SurfaceMap K)) (params : LoadParams K)
    (faces : List (List (List (QPoint K)))) (faceCells : List (List ℕ)) (sol : List K) : Except PyErr K :=
  if faces.length = 0 then .ok 0
  else match loadParams faces.length params with
    | .error e => .error e
    | .ok ps => .ok (complianceOn v maps (List.zipWith withParam faces ps) faceCells sol)

/-- Per-point parameters of a surface. -/
def withVars (faces : List (List (QPoint K))) (svars : List (List (List K))) : List (List (QPoint K)) :=
  List.zipWith (fun pts ivs => List.zipWith (fun q iv => { q with iv := iv }) pts ivs) faces svars

/-- `create_dynamic_compliance_fn(problem)(sol, surface_vars)` (`/repo/feax/gene/responses.py:106-187`):
`zip` stops at the shorter of surfaces and `surface_vars`. -/
def dynamicComplianceFn (v : Var) (maps : List (SurfaceMap K)) (faces : List (List (List (QPoint K))))
    (faceCells : List (List ℕ)) (sol : List K) (surfaceVars : List (List (List (List K)))) : K :=
  if faces.length = 0 then 0
  else complianceOn v maps (List.zipWith withVars faces surfaceVars) faceCells sol

/-- The faces as the residual sees them: surfaces beyond the end of `surface_vars` get no parameters
(`/repo/feax/assembler.py:1024`). -/
def residualFaces (faces : List (List (List (QPoint K)))) (surfaceVars : List (List (List (List K)))) :
    List (List (List (QPoint K))) :=
  faces.zipIdx.map (fun bd => match surfaceVars[bd.2]? with
    | some sv => withVars bd.1 sv
    | none => withParam bd.1 [])

end ring

/-- What `create_volume_fn` keeps of `problem.fes[0]` (`/repo/feax/gene/responses.py:207-216`). -/
structure VolumeData (K : Type*) where
  jxw : List (List K)
  shapeVals : List (List K)
  cells : List (List ℕ)
  numNodes : ℕ
  numQuads : ℕ

section field
variable {K : Type*} [Field K]

/-- `domain_volume` (`/repo/feax/gene/responses.py:216`). -/
def VolumeData.domain (p : VolumeData K) : K := (p.jxw.map List.sum).sum

/-- `np.sum(rho_quads * JxW)` with density given per cell and quadrature point. -/
def VolumeData.integrate (p : VolumeData K) (rho : ℕ → ℕ → K) : K :=
  (p.jxw.zipIdx.map (fun row => (row.1.zipIdx.map (fun w => rho row.2 w.2 * w.1)).sum)).sum

/-- `create_volume_fn(problem)(rho_array)` (`/repo/feax/gene/responses.py:190-256`); the argument is
`rho_array.ravel()`. Error: the `TypeError` of `reshape`. -/
def volumeFn (p : VolumeData K) (rho : List K) : Except PyErr K :=
  if rho.length = p.numNodes then
    .ok (p.integrate (fun c q => ((p.cells.getD c []).zipIdx.map (fun na =>
      (p.shapeVals.getD q []).getD na.2 0 * rho.getD na.1 0)).sum) / p.domain)
  else if rho.length = p.cells.length then
    .ok (p.integrate (fun c _ => rho.getD c 0) / p.domain)
  else if rho.length = p.cells.length * p.numQuads then
    .ok (p.integrate (fun c q => rho.getD (c * p.numQuads + q) 0) / p.domain)
  else .error .typeError

end field

end Verif.Model
