import Verif.Model.Elements
import Verif.Model.Mesh
import Mathlib.LinearAlgebra.Matrix.Adjugate
import Mathlib.Algebra.Order.Field.Basic

/-!
# `feax.gene.sdf`: signed distance fields

Points are functions of the coordinate index, numbers elements of an ordered field. Outside the model: the answers of the
`cKDTree` queries (arguments), marching cubes, trimesh and gmsh. Distances to the element are compared squared.
-/

namespace Verif.Model

/-- A point with `d` coordinates. -/
abbrev Pt (K : Type*) (d : ℕ) := Fin d → K

/-- An `SDF` object (`/repo/feax/gene/sdf.py:39-52`): what `__call__`, `evaluate` and `_default_bounds` return. -/
structure Sdf (K : Type) (d : ℕ) where
  call : Pt K d → K
  evaluate : List (Pt K d) → List K
  bounds : Except PyErr (Pt K d × Pt K d)

section Csg
variable {K : Type} [Field K] [LinearOrder K] {d : ℕ}

/-- A subclass that only defines `__call__`: the inherited `evaluate` (`/repo/feax/gene/sdf.py:50-52`) and
`_default_bounds` (`286-289`). -/
def Sdf.ofCall (f : Pt K d → K) : Sdf K d :=
  { call := f, evaluate := fun ps => ps.map f, bounds := .error .notImplemented }

/-- `Union` (`/repo/feax/gene/sdf.py:370-385`), also `a | b` (`56-58`). -/
def Sdf.union (a b : Sdf K d) : Sdf K d where
  call p := min (a.call p) (b.call p)
  evaluate ps := List.zipWith min (a.evaluate ps) (b.evaluate ps)
  bounds := do
    let (la, ha) ← a.bounds
    let (lb, hb) ← b.bounds
    .ok (fun k => min (la k) (lb k), fun k => max (ha k) (hb k))

/-- `Intersection` (`/repo/feax/gene/sdf.py:388-403`), also `a & b` (`60-62`). -/
def Sdf.inter (a b : Sdf K d) : Sdf K d where
  call p := max (a.call p) (b.call p)
  evaluate ps := List.zipWith max (a.evaluate ps) (b.evaluate ps)
  bounds := do
    let (la, ha) ← a.bounds
    let (lb, hb) ← b.bounds
    .ok (fun k => max (la k) (lb k), fun k => min (ha k) (hb k))

/-- `Difference` (`/repo/feax/gene/sdf.py:406-419`), also `a - b` (`64-66`). -/
def Sdf.diff (a b : Sdf K d) : Sdf K d where
  call p := max (a.call p) (-b.call p)
  evaluate ps := List.zipWith max (a.evaluate ps) ((b.evaluate ps).map fun x => -x)
  bounds := a.bounds

/-- The sample points of `to_mesh` (`/repo/feax/gene/sdf.py:113-123`): `meshgrid(indexing='ij')`, flattened. -/
def sampleGrid (lo hi : Pt K 3) (padding : K) (res : ℕ) : List (Pt K 3) :=
  let axis := fun k : Fin 3 => linspace (lo k - padding) (hi k + padding) res
  (axis 0).flatMap fun x => (axis 1).flatMap fun y => (axis 2).map fun z => ![x, y, z]

/-- The position given to a vertex that marching cubes finds at the (fractional) grid index `i`
(`/repo/feax/gene/sdf.py:128-130`): index times spacing, shifted by the lower corner. -/
def vertexPosition (lo hi : Pt K 3) (padding : K) (res : ℕ) (i : Pt K 3) : Pt K 3 := fun k =>
  i k * (((hi k + padding) - (lo k - padding)) / ((res : K) - 1)) + (lo k - padding)

/-- The volume handed to marching cubes (`/repo/feax/gene/sdf.py:111-126`), entry `[i, j, k]`; the default bounds are used
when none are given. -/
def Sdf.volume (f : Sdf K 3) (bounds : Option (Pt K 3 × Pt K 3)) (padding : K) (res : ℕ) : Except PyErr (ℕ → ℕ → ℕ → K) := do
  let (lo, hi) ← match bounds with
    | none => f.bounds
    | some b => .ok b
  let vals := f.evaluate (sampleGrid lo hi padding res)
  .ok fun i j k => vals.getD ((i * res + j) * res + k) 0

end Csg

/-! ## Locating a point in an element -/

section Locate
variable {K : Type} [Field K] [LinearOrder K] {d : ℕ}

/-- `xi[i]`, `0` beyond the dimension (unused there). -/
def coordAt (xi : Pt K d) (i : ℕ) : K := if h : i < d then xi ⟨i, h⟩ else 0

/-- `_SIMPLEX_TYPES` (`/repo/feax/gene/sdf.py:426`). -/
def EleType.isSimplex : EleType → Bool
  | .TET4 | .TET10 | .TRI3 | .TRI6 => true
  | _ => false

/-- `_inside_ref_element` (`/repo/feax/gene/sdf.py:430-442`) and its vectorised form (`445-452`), with the default
tolerance. -/
def insideRef (e : EleType) (xi : Pt K d) : Bool :=
  if e.isSimplex then
    (List.finRange d).all (fun i => decide (-(1 / 10 ^ 6) ≤ xi i)) && decide (∑ i, xi i ≤ 1 + 1 / 10 ^ 6)
  else (List.finRange d).all (fun i => decide (-(1 / 10 ^ 6) ≤ xi i)) && (List.finRange d).all (fun i => decide (xi i ≤ 1 + 1 / 10 ^ 6))

/-- `_ref_element_distance` (`/repo/feax/gene/sdf.py:648-654`) and its vectorised form (`721-726`): `-xi.min()` is the
largest of `-xi`. -/
def refDistance (e : EleType) (xi : Pt K d) : K :=
  let neg := (List.finRange d).foldl (fun m i => max m (-xi i)) 0
  if e.isSimplex then max neg (∑ i, xi i - 1)
  else (List.finRange d).foldl (fun m i => max m (xi i - 1)) neg

/-- `_clamp_to_ref` (`/repo/feax/gene/sdf.py:656-665`) and its vectorised form (`744-749`). -/
def clampRef (e : EleType) (xi : Pt K d) : Pt K d :=
  if e.isSimplex then
    let y : Pt K d := fun i => max (xi i) 0
    if 1 < ∑ i, y i then fun i => y i / ∑ j, y j else y
  else fun i => min (max (xi i) 0) 1

/-- `element.tabulate(0, xi)` in the order of Basix. -/
def basixAt (e : EleType) (xi : Pt K d) : List K := basixValues e (coordAt xi 0) (coordAt xi 1) (coordAt xi 2)

/-- `element.tabulate(1, xi)[1 + j]` in the order of Basix: exact derivatives, as in `shapeGradAt`. -/
def basixGrad (e : EleType) (xi : Pt K d) (j : ℕ) : List K :=
  (basixValues e (TrivSqZeroExt.inl (coordAt xi 0) + if j = 0 then DualNumber.eps else 0)
    (TrivSqZeroExt.inl (coordAt xi 1) + if j = 1 then DualNumber.eps else 0)
    (TrivSqZeroExt.inl (coordAt xi 2) + if j = 2 then DualNumber.eps else 0) : List (DualNumber K)).map TrivSqZeroExt.snd

/-- `N @ elem_pts` (`/repo/feax/gene/sdf.py:617`, `797`). -/
def mapPoint (w : List K) (X : List (Pt K d)) : Pt K d := fun k => (List.zipWith (fun n x => n * x k) w X).sum

/-- `J = dN @ elem_pts` (`/repo/feax/gene/sdf.py:618`, `799`). -/
def mapJacobian (e : EleType) (X : List (Pt K d)) (xi : Pt K d) : Matrix (Fin d) (Fin d) K :=
  Matrix.of fun a k => mapPoint (basixGrad e xi a) X k

/-- `onp.linalg.solve(J, r)` (`/repo/feax/gene/sdf.py:628`, `808`), by Cramer's rule; `LinAlgError` is `none`. -/
def solveLin (J : Matrix (Fin d) (Fin d) K) (r : Pt K d) : Option (Pt K d) :=
  if J.det = 0 then none else some fun i => (J.adjugate.mulVec r) i / J.det

/-- Squared length of `x(xi) - p`. -/
def residualSq (e : EleType) (X : List (Pt K d)) (p xi : Pt K d) : K :=
  ∑ k, (mapPoint (basixAt e xi) X k - p k) ^ 2

/-- One Newton step (`/repo/feax/gene/sdf.py:617-631`, `797-811`). -/
def newtonStep (e : EleType) (X : List (Pt K d)) (p xi : Pt K d) : Option (Pt K d) :=
  (solveLin (mapJacobian e X xi) fun k => mapPoint (basixAt e xi) X k - p k).map fun delta k => xi k - delta k

/-- The Newton loop of `_inverse_map_single` (`/repo/feax/gene/sdf.py:610-636`), with the remaining iterations and the
squared residual of the last one. Simplification: numbers are finite. -/
def newtonSingle (e : EleType) (X : List (Pt K d)) (p : Pt K d) : ℕ → Pt K d → K → Option (Pt K d)
  | 0, xi, last => if last < 1 / 10 ^ 12 then some xi else none
  | n + 1, xi, _ =>
    let s := residualSq e X p xi
    if 10 ^ 20 < s then none
    else if s < 1 / 10 ^ 20 then some xi
    else match newtonStep e X p xi with
      | none => none
      | some xi' => newtonSingle e X p n xi' s

/-- `_ref_centroid` (`/repo/feax/gene/sdf.py:520`): mean of the reference vertices. -/
def refCentroid (e : EleType) : Pt K d := fun k =>
  ((basixVertices e).map fun v => ((v.getD k 0 : ℕ) : K)).sum / ((basixVertices e).length : K)

/-- The batched Newton loop of `_inverse_map_batch` (`/repo/feax/gene/sdf.py:783-813`): all points are iterated until the
largest residual is small, one singular matrix ends it for all, and nothing is checked at the end. -/
def newtonBatch (e : EleType) (Xs : List (List (Pt K d))) (ps : List (Pt K d)) : ℕ → List (Pt K d) → Option (List (Pt K d))
  | 0, xis => some xis
  | n + 1, xis =>
    let items := Xs.zip (ps.zip xis)
    if items.all (fun t => decide (residualSq e t.1 t.2.1 t.2.2 < 1 / 10 ^ 20)) then some xis
    else match items.mapM (fun t => newtonStep e t.1 t.2.1 t.2.2) with
      | none => none
      | some xis' => newtonBatch e Xs ps n xis'

end Locate

/-! ## The search over candidates -/

/-- What the search needs to know about elements: the inverse map for one point and for a batch, the containment test, the
distance, the clamp, and the interpolated density of element `e` at `xi`. -/
structure Locator (P X K : Type) where
  inverse : P → ℕ → Option X
  inverseBatch : List P → List ℕ → Option (List X)
  inside : X → Bool
  dist : X → K
  clamp : X → X
  value : ℕ → X → K

/-- The best near-miss: distance, reference point, element. `none` is the initial `inf`. -/
abbrev NearMiss (X K : Type) := Option (K × X × ℕ)

section Search
variable {P X K : Type} [Field K] [LinearOrder K]

/-- `dist < best_dist` (`/repo/feax/gene/sdf.py:577`, `727`). -/
def improves (d : K) (best : NearMiss X K) : Bool :=
  match best with
  | none => true
  | some b => decide (d < b.1)

/-- The loop of `_interpolate_single` (`/repo/feax/gene/sdf.py:563-580`): the density of the first element that contains
the point, or the best near-miss. -/
def locate (L : Locator P X K) (p : P) : List ℕ → NearMiss X K → K ⊕ NearMiss X K
  | [], best => .inr best
  | e :: es, best =>
    match L.inverse p e with
    | none => locate L p es best
    | some xi =>
      if L.inside xi then .inl (L.value e xi)
      else if improves (L.dist xi) best then locate L p es (some (L.dist xi, xi, e))
      else locate L p es best

/-- Near-misses and points that no element is near (`/repo/feax/gene/sdf.py:582-595`, `733-766`). -/
def settle (L : Locator P X K) (far : P → K) (p : P) (best : NearMiss X K) : K :=
  match best with
  | some b => if b.1 < 1 / 2 then L.value b.2.2 (L.clamp b.2.1) else far p
  | none => far p

/-- `_interpolate_single` (`/repo/feax/gene/sdf.py:557-595`); `candidates` is the answer of the tree. -/
def densitySingle (L : Locator P X K) (candidates : P → List ℕ) (far : P → K) (p : P) : K :=
  match locate L p (candidates p) none with
  | .inl v => v
  | .inr best => settle L far p best

/-- Effect of one candidate on one point of the batch (`/repo/feax/gene/sdf.py:706-731`). -/
def pointUpdate (L : Locator P X K) (e : ℕ) (xi : X) (s : Option K × NearMiss X K) : Option K × NearMiss X K :=
  if L.inside xi then (some (L.value e xi), s.2)
  else if improves (L.dist xi) s.2 then (s.1, some (L.dist xi, xi, e))
  else s

/-- Candidate `k` for all points without a density (`/repo/feax/gene/sdf.py:692-731`). The masked assignments touch distinct
points; here they are made one after the other. -/
def batchStep (L : Locator P X K) (points : List P) (d : P) (cand : List (List ℕ)) (st : List (Option K × NearMiss X K)) (k : ℕ) :
    List (Option K × NearMiss X K) :=
  let idx := (List.range points.length).filter fun i => (st.getD i (none, none)).1.isNone
  let ei := idx.map fun i => (cand.getD i []).getD k 0
  match L.inverseBatch (idx.map fun i => points.getD i d) ei with
  | none => st
  | some xs => (idx.zip (ei.zip xs)).foldl (fun st t => st.set t.1 (pointUpdate L t.2.1 t.2.2 (st.getD t.1 (none, none)))) st

/-- The densities of `DensityField.evaluate` (`/repo/feax/gene/sdf.py:669-768`). A density that is not a number counts as not
found in the code; here densities are numbers. -/
def densityBatch (L : Locator P X K) (candidates : P → List ℕ) (numCand : ℕ) (far : P → K) (d : P) (points : List P) : List K :=
  let cand := points.map candidates
  let st := (List.range numCand).foldl (batchStep L points d cand) (points.map fun _ => (none, none))
  (points.zip st).map fun t => match t.2.1 with
    | some v => v
    | none => settle L far t.1 t.2.2

end Search

/-! ## `DensityField` -/

/-- The arguments of `DensityField` (`/repo/feax/gene/sdf.py:491-497`) and the answers of the two trees. -/
structure DensityArgs (K : Type) (d : ℕ) where
  rho : List K
  points : List (Pt K d)
  cells : List (List ℕ)
  eleType : EleType
  threshold : K
  closeBoundary : Bool
  candidates : Pt K d → List ℕ
  nearest : Pt K d → ℕ

namespace DensityArgs
variable {K : Type} [Field K] [LinearOrder K] {d : ℕ} (A : DensityArgs K d)

/-- `_elem_nodes[e]` (`/repo/feax/gene/sdf.py:529`): coordinates in the order of Basix. -/
def elemNodes (e : ℕ) : List (Pt K d) :=
  A.eleType.reOrder.map fun a => A.points.getD ((A.cells.getD e []).getD a 0) fun _ => 0

/-- `_rho[_cells[e][_re_order]]` (`/repo/feax/gene/sdf.py:573`). -/
def elemRho (e : ℕ) : List K :=
  A.eleType.reOrder.map fun a => A.rho.getD ((A.cells.getD e []).getD a 0) 0

/-- `T` (`/repo/feax/gene/sdf.py:533-536`): the edges from the first vertex, as columns. -/
def edgeMatrix (e : ℕ) : Matrix (Fin d) (Fin d) K :=
  Matrix.of fun k i => (A.elemNodes e).getD (i + 1) (fun _ => 0) k - (A.elemNodes e).getD 0 (fun _ => 0) k

/-- `_linear_simplex` (`/repo/feax/gene/sdf.py:523-525`). -/
def linearSimplex : Bool := A.eleType = .TET4 ∨ A.eleType = .TRI3

/-- `_inv_T[e] @ (p - _v0[e])` (`/repo/feax/gene/sdf.py:538`, `606-608`, `779-781`). -/
def barycentric (p : Pt K d) (e : ℕ) : Pt K d :=
  fun i => ((A.edgeMatrix e).adjugate.mulVec fun k => p k - (A.elemNodes e).getD 0 (fun _ => 0) k) i / (A.edgeMatrix e).det

/-- `N @ node_vals` with `_shape_vals_at` (`/repo/feax/gene/sdf.py:572-574`, `638-646`, `815-829`). -/
def interpolated (e : ℕ) (xi : Pt K d) : K :=
  if A.linearSimplex then (List.zipWith (· * ·) ((1 - ∑ i, xi i) :: List.ofFn xi) (A.elemRho e)).sum
  else (List.zipWith (· * ·) (basixAt A.eleType xi) (A.elemRho e)).sum

/-- The locator of the field: `_inverse_map_single`, `_inverse_map_batch` (`/repo/feax/gene/sdf.py:597-636`, `770-813`). -/
def locator : Locator (Pt K d) (Pt K d) K where
  inverse p e :=
    if A.linearSimplex then some (A.barycentric p e)
    else newtonSingle A.eleType (A.elemNodes e) p 20 (refCentroid A.eleType) 0
  inverseBatch ps es :=
    if A.linearSimplex then some (List.zipWith A.barycentric ps es)
    else newtonBatch A.eleType (es.map A.elemNodes) ps 20 (ps.map fun _ => refCentroid A.eleType)
  inside := insideRef A.eleType
  dist := refDistance A.eleType
  clamp := clampRef A.eleType
  value := A.interpolated

/-- `_lo` and `_hi` (`/repo/feax/gene/sdf.py:512-513`), one axis. -/
def lower (k : Fin d) : K :=
  match A.points with
  | [] => 0
  | x :: xs => xs.foldl (fun m y => min m (y k)) (x k)

/-- See `lower`. -/
def upper (k : Fin d) : K :=
  match A.points with
  | [] => 0
  | x :: xs => xs.foldl (fun m y => max m (y k)) (x k)

/-- Outside the bounding box by more than one percent (`/repo/feax/gene/sdf.py:591-592`, `757-759`). -/
def outsideBox (p : Pt K d) : Bool :=
  (List.finRange d).any fun k =>
    decide (p k < A.lower k - (A.upper k - A.lower k) * (1 / 100)) || decide (A.upper k + (A.upper k - A.lower k) * (1 / 100) < p k)

/-- The density of points that no element is near (`/repo/feax/gene/sdf.py:589-595`, `754-766`). -/
def farDensity (p : Pt K d) : K :=
  if A.closeBoundary && A.outsideBox p then 0 else A.rho.getD (A.nearest p) 0

/-- `DensityField.__init__`, `__call__`, `evaluate`, `_default_bounds` (`/repo/feax/gene/sdf.py:491-548`, `552-555`, `669-768`,
`835-836`). An empty mesh has no bounding box (`ValueError`); a flat linear simplex has no inverse (`LinAlgError`, here
`runtimeError`). Simplifications: the spatial dimension is that of the element; nodes are in range. -/
def field : Except PyErr (Sdf K d) :=
  if A.points = [] then .error .valueError
  else if A.linearSimplex ∧ (List.range A.cells.length).any (fun e => decide ((A.edgeMatrix e).det = 0)) then .error .runtimeError
  else .ok {
    call := fun p => A.threshold - densitySingle A.locator A.candidates A.farDensity p
    evaluate := fun ps => (densityBatch A.locator A.candidates (min 16 A.cells.length) A.farDensity (fun _ => 0) ps).map fun x => A.threshold - x
    bounds := .ok (A.lower, A.upper) }

end DensityArgs

/-- `_MESHIO_TO_FEAX` (`/repo/feax/gene/sdf.py:868-877`). -/
def vtkToFeax : String → Option String
  | "tetra" => some "TET4"
  | "tetra10" => some "TET10"
  | "hexahedron" => some "HEX8"
  | "hexahedron20" => some "HEX20"
  | "triangle" => some "TRI3"
  | "triangle6" => some "TRI6"
  | "quad" => some "QUAD4"
  | "quad8" => some "QUAD8"
  | _ => none

/-- `from_vtk` (`/repo/feax/gene/sdf.py:880-950`): the density array and the cells chosen from the file. -/
def fromVtk {α β : Type} (pointData : List (String × α)) (blocks : List (String × β)) (fieldName : String) :
    Except PyErr (α × String × β) :=
  match pointData.find? fun p => p.1 == fieldName with
  | none => .error .keyError
  | some rho =>
    match blocks.findSome? fun b => (vtkToFeax b.1).map fun t => (t, b.2) with
    | none => .error .valueError
    | some c => .ok (rho.2, c)

/-- The target size given to gmsh by `to_volume_mesh` (`/repo/feax/gene/sdf.py:228-229`), from the diagonal of the box. -/
def volumeMeshSize {K : Type} [Field K] (meshSize : Option K) (diag : K) (res : ℕ) : K :=
  meshSize.getD (diag / res * 2)

end Verif.Model
