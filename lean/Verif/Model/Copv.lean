import Verif.Model.Layered
import Verif.Model.Solution
import Mathlib.Analysis.SpecialFunctions.Trigonometric.Inverse

/-!
# Double-wall pressure vessels (`feax.mechanics.copv`)

Real arithmetic replaces floating point. A division by zero or an inverse cosine outside `[-1, 1]` gives NaN in NumPy; where that
matters the comment says so.
-/

namespace Verif.Model

noncomputable section

/-- `DoubleWallCopvGeometry` (`/repo/feax/mechanics/copv.py:51-92`). -/
structure CopvGeom where
  a : ℝ
  shellT : ℝ
  gap : ℝ
  cylLen : ℝ
  polarRadius : ℝ
  nCircum : ℕ
  nMeridCyl : ℕ
  nMeridDome : ℕ
  nFill : ℕ
  axis : Fin 3 → ℝ

namespace CopvGeom
variable (g : CopvGeom)

/-- `d_layers` (`/repo/feax/mechanics/copv.py:99-109`). -/
def dLayers : List ℝ :=
  [0, g.shellT] ++ (List.range g.nFill).map (fun i => g.shellT + g.gap * ((i + 1 : ℕ) : ℝ) / (g.nFill : ℝ)) ++
    [g.shellT + g.gap + g.shellT]

/-- `n_layers` (`/repo/feax/mechanics/copv.py:111-113`). -/
def nLayers : ℕ := g.nFill + 3

/-- `n_rad_el` (`/repo/feax/mechanics/copv.py:115-117`). -/
def nRadEl : ℕ := g.nFill + 2

/-- `lam_max * i / n_merid_dome` (`/repo/feax/mechanics/copv.py:279-281`). -/
def latitude (i : ℕ) : ℝ := Real.arccos (g.polarRadius / g.a) * (i : ℝ) / (g.nMeridDome : ℝ)

/-- The stations of `build_meridian` (`/repo/feax/mechanics/copv.py:274-285`) as `(r, z, n_r, n_z)`. -/
def stations : List (ℝ × ℝ × ℝ × ℝ) :=
  (List.range (g.nMeridCyl + 1)).map (fun i : ℕ => (g.a, g.cylLen * (i : ℝ) / (g.nMeridCyl : ℝ), 1, 0)) ++
    (List.range g.nMeridDome).map fun i =>
      (g.a * Real.cos (g.latitude (i + 1)), g.cylLen + g.a * Real.sin (g.latitude (i + 1)), Real.cos (g.latitude (i + 1)),
        Real.sin (g.latitude (i + 1)))

/-- `build_meridian` (`/repo/feax/mechanics/copv.py:266-285`): `Lc * i / n_merid_cyl` and `r_p / a` are divisions of Python
numbers, which raise on zero. -/
def buildMeridian : Except PyErr (List (ℝ × ℝ × ℝ × ℝ)) :=
  if g.nMeridCyl = 0 ∨ g.a = 0 then .error .zeroDivision else .ok g.stations

/-- `nid` (`/repo/feax/mechanics/copv.py:315-316`) and `node_id` (`150-153`). -/
def nodeId (i j kk : ℕ) : ℕ := (i * g.nCircum + j % g.nCircum) * g.nLayers + kk

/-- The node at station `s`, column `j`, offset `d` (`/repo/feax/mechanics/copv.py:321-326`). -/
def position (s : ℝ × ℝ × ℝ × ℝ) (j : ℕ) (d : ℝ) : Fin 3 → ℝ :=
  let theta := 2 * Real.pi * (j : ℝ) / (g.nCircum : ℝ)
  let r := s.1 + d * s.2.2.1
  ![r * Real.cos theta, r * Real.sin theta, s.2.1 + d * s.2.2.2]

/-- `points` (`/repo/feax/mechanics/copv.py:318-326`). The loops write the rows in increasing order of `nid`. -/
def points : List (Fin 3 → ℝ) :=
  g.stations.flatMap fun s => (List.range g.nCircum).flatMap fun j => g.dLayers.map fun d => g.position s j d

/-- `n_merid` (`/repo/feax/mechanics/copv.py:309`). -/
def nMerid : ℕ := g.stations.length - 1

/-- The nodes of one cell (`/repo/feax/mechanics/copv.py:332-335`). -/
def cellRow (i j ke : ℕ) : List ℕ :=
  [g.nodeId i j ke, g.nodeId i (j + 1) ke, g.nodeId (i + 1) (j + 1) ke, g.nodeId (i + 1) j ke,
    g.nodeId i j (ke + 1), g.nodeId i (j + 1) (ke + 1), g.nodeId (i + 1) (j + 1) (ke + 1), g.nodeId (i + 1) j (ke + 1)]

/-- `cells` (`/repo/feax/mechanics/copv.py:328-335`). -/
def cells : List (List ℕ) :=
  (List.range g.nMerid).flatMap fun i => (List.range g.nCircum).flatMap fun j => (List.range g.nRadEl).map fun ke => g.cellRow i j ke

/-- The label of a radial element (`/repo/feax/mechanics/copv.py:336-337`, `46-48`): 0 inner shell, 1 fill, 2 outer shell. -/
def zoneOf (ke : ℕ) : ℕ := if ke = 0 then 0 else if ke = g.nRadEl - 1 then 2 else 1

/-- `zone` (`/repo/feax/mechanics/copv.py:328-337`). -/
def cellZone : List ℕ :=
  (List.range g.nMerid).flatMap fun _ => (List.range g.nCircum).flatMap fun _ => (List.range g.nRadEl).map g.zoneOf

/-- `points[cells[e]]` (`/repo/feax/mechanics/copv.py:163-166`, `344`). -/
def cellNodes (e : ℕ) : HexNodes := fun a => g.points.getD ((g.cells.getD e []).getD a 0) fun _ => 0

/-- `onp.allclose(axis, [0, 0, 1])` (`/repo/feax/mechanics/copv.py:310-311`), default tolerances. -/
def axisIsZ : Prop := |g.axis 0| ≤ 1 / 10 ^ 8 ∧ |g.axis 1| ≤ 1 / 10 ^ 8 ∧ |g.axis 2 - 1| ≤ 1 / 10 ^ 8 + 1 / 10 ^ 5

/-- The determinants of the check (`/repo/feax/mechanics/copv.py:342-345`), cell `e`. -/
def centreDet (e : ℕ) : ℝ := (hexJac (g.cellNodes e) (hexGrad (1 / 2) (1 / 2) (1 / 2))).det

/-- `numpy.arccos(r_p / a)` is a number (used at `/repo/feax/mechanics/copv.py:279`), or not used. Otherwise the dome is NaN. -/
def latitudeDefined : Prop := g.nMeridDome = 0 ∨ (-1 ≤ g.polarRadius / g.a ∧ g.polarRadius / g.a ≤ 1)

open Classical in
/-- `create_double_wall_copv_mesh` (`/repo/feax/mechanics/copv.py:288-351`): whether it returns. The result is given by `points`,
`cells`, `cellZone`. NaN determinants fail the comparison `detJ > 0`. Simplification: at least one column. -/
def createMesh (checkJacobian : Bool) : Except PyErr CopvGeom :=
  match g.buildMeridian with
  | .error e => .error e
  | .ok _ =>
    if ¬ g.axisIsZ then .error .notImplemented
    else if checkJacobian = true ∧ ¬ (g.latitudeDefined ∧ ∀ e < g.cells.length, 0 < g.centreDet e) then .error .valueError
    else .ok g

/-! ## Node sets, masks and DOFs -/

/-- `equator_node_ids` (`/repo/feax/mechanics/copv.py:169-172`). -/
def equatorNodeIds : List ℕ := (List.range g.nCircum).flatMap fun j => (List.range g.nLayers).map fun kk => g.nodeId 0 j kk

/-- `rim_inner_node_ids` (`/repo/feax/mechanics/copv.py:174-178`). -/
def rimInnerNodeIds : List ℕ := (List.range g.nCircum).flatMap fun j => [0, 1].map fun kk => g.nodeId g.nMerid j kk

/-- `outer_surface_node_ids` (`/repo/feax/mechanics/copv.py:180-184`). -/
def outerSurfaceNodeIds : List ℕ :=
  (List.range (g.nMerid + 1)).flatMap fun i => (List.range g.nCircum).map fun j => g.nodeId i j (g.nLayers - 1)

/-- `inner_surface_node_ids` (`/repo/feax/mechanics/copv.py:186-190`). -/
def innerSurfaceNodeIds : List ℕ :=
  (List.range (g.nMerid + 1)).flatMap fun i => (List.range g.nCircum).map fun j => g.nodeId i j 0

/-- `rim_inner_radius` (`/repo/feax/mechanics/copv.py:192-195`). The minimum of an empty array raises, here `none`. -/
def rimInnerRadius : Option ℝ :=
  (g.rimInnerNodeIds.map fun n => Real.sqrt (g.points.getD n (fun _ => 0) 0 ^ 2 + g.points.getD n (fun _ => 0) 1 ^ 2)).min?

/-- `dome_cell_mask` (`/repo/feax/mechanics/copv.py:198-207`). -/
def domeCellMask : List Bool :=
  (List.range g.cells.length).map fun e => decide (g.nMeridCyl ≤ e / (g.nCircum * g.nRadEl))

/-- `equator_axial_dofs` (`/repo/feax/mechanics/copv.py:210-212`). -/
def equatorAxialDofs : List ℕ := g.equatorNodeIds.map fun n => n * 3 + 2

/-- `rigid_inplane_pin_dofs` (`/repo/feax/mechanics/copv.py:214-224`). -/
def pinDofs : List ℕ :=
  [g.nodeId 0 0 0 * 3 + 0, g.nodeId 0 0 0 * 3 + 1, g.nodeId 0 (g.nCircum / 2) 0 * 3 + 1]

/-- `buckling_free_dofs` (`/repo/feax/mechanics/copv.py:226-235`): the sorted difference of the sets. -/
def freeDofs (numTotal : ℕ) : List ℕ :=
  (List.range numTotal).filter fun n => !(g.equatorAxialDofs.contains n) && !(g.pinDofs.contains n)

/-- The test of the three `location_fn` (`/repo/feax/mechanics/copv.py:238-263`): the smallest distance to the listed nodes is
below `tol`. -/
def nearNodes (ids : List ℕ) (tol : ℝ) (p : Fin 3 → ℝ) : Prop :=
  ∃ n ∈ ids, Real.sqrt (∑ k, (g.points.getD n (fun _ => 0) k - p k) ^ 2) < tol

end CopvGeom

/-! ## Winding frames -/

/-- `jnp.linalg.norm` of a vector. -/
def normV (v : Fin 3 → ℝ) : ℝ := Real.sqrt (∑ k, v k ^ 2)

/-- `v / jnp.linalg.norm(v)`. -/
def unitV (v : Fin 3 → ℝ) : Fin 3 → ℝ := fun k => v k / normV v

/-- `u @ v`. -/
def dotV (u v : Fin 3 → ℝ) : ℝ := ∑ k, u k * v k

/-- `jnp.cross`. -/
def crossV (u v : Fin 3 → ℝ) : Fin 3 → ℝ := ![u 1 * v 2 - u 2 * v 1, u 2 * v 0 - u 0 * v 2, u 0 * v 1 - u 1 * v 0]

/-- The wall triad: `t_merid`, `t_hoop`, `e_normal`, `r`. -/
structure Triad where
  merid : Fin 3 → ℝ
  hoop : Fin 3 → ℝ
  normal : Fin 3 → ℝ
  radius : ℝ

/-- `_cell_triad` (`/repo/feax/mechanics/copv.py:354-368`). -/
def cellTriad (nodes : HexNodes) (axis : Fin 3 → ℝ) : Triad :=
  let e3 := unitV fun k => (nodes 4 k + nodes 5 k + nodes 6 k + nodes 7 k) / 4 - (nodes 0 k + nodes 1 k + nodes 2 k + nodes 3 k) / 4
  let c : Fin 3 → ℝ := fun k => (∑ a, nodes a k) / 8
  let rVec : Fin 3 → ℝ := fun k => c k - dotV c axis * axis k
  let eR := unitV rVec
  let t0 := crossV axis eR
  let tH := unitV fun k => t0 k - dotV t0 e3 * e3 k
  ⟨crossV tH e3, tH, e3, normV rVec⟩

/-- `jnp.arcsin(jnp.clip(r_p / r_cyl, 0, 1))` (`/repo/feax/mechanics/copv.py:380`, `554-555`). -/
def windingAngle (rp r : ℝ) : ℝ := Real.arcsin (max 0 (min (rp / r) 1))

/-- `helical_axes` (`/repo/feax/mechanics/copv.py:382-385`) and the stacked frame (`400`): columns `f1`, `f2`, `e3`. -/
def helicalFrame (T : Triad) (ang : ℝ) : Arr2 ℝ 3 := fun i =>
  ![Real.cos ang * T.merid i + Real.sin ang * T.hoop i, -Real.sin ang * T.merid i + Real.cos ang * T.hoop i, T.normal i]

/-- The frame of a hoop ply (`/repo/feax/mechanics/copv.py:391`, `400`). -/
def hoopFrame (T : Triad) : Arr2 ℝ 3 := fun i => ![T.hoop i, -T.merid i, T.normal i]

/-- The loop of `_cell_ply_frames` (`/repo/feax/mechanics/copv.py:387-401`), with the number of hoop plies seen so far. -/
def plyFramesFrom (T : Triad) (alpha : ℝ) (isDome dropDomeHoop : Bool) : ℕ → List (String × ℝ) → List (Arr2 ℝ 3)
  | _, [] => []
  | hoops, (kind, sign) :: rest =>
    if kind = "hoop" then
      (if dropDomeHoop = true ∧ isDome = true then helicalFrame T ((if hoops % 2 = 0 then 1 else -1) * alpha) else hoopFrame T) ::
        plyFramesFrom T alpha isDome dropDomeHoop (hoops + 1) rest
    else helicalFrame T (sign * alpha) :: plyFramesFrom T alpha isDome dropDomeHoop hoops rest

/-- `_cell_ply_frames` (`/repo/feax/mechanics/copv.py:371-401`). -/
def plyFrames (nodes : HexNodes) (isDome : Bool) (axis : Fin 3 → ℝ) (rp : ℝ) (layup : List (String × ℝ)) (dropDomeHoop : Bool) :
    List (Arr2 ℝ 3) :=
  let T := cellTriad nodes axis
  plyFramesFrom T (windingAngle rp T.radius) isDome dropDomeHoop 0 layup

namespace CopvGeom
variable (g : CopvGeom)

/-- The frames of cell `e`. -/
def cellFrames (layup : List (String × ℝ)) (dropDomeHoop : Bool) (e : ℕ) : List (Arr2 ℝ 3) :=
  plyFrames (g.cellNodes e) (g.domeCellMask.getD e false) g.axis g.polarRadius layup dropDomeHoop

/-- `create_winding_ply_stiffness` (`/repo/feax/mechanics/copv.py:404-461`). -/
def windingStiffness (plyC : Arr4 ℝ 3) (layup : List (String × ℝ)) (fillC : Option (Arr4 ℝ 3)) (dropDomeHoop : Bool) :
    List (List (Arr4 ℝ 3)) :=
  (List.range g.cells.length).map fun e =>
    let shell := (g.cellFrames layup dropDomeHoop e).map fun R => rotate4 plyC R
    match fillC with
    | none => shell
    | some C => if g.cellZone.getD e 0 ≠ 1 then shell else List.replicate layup.length C

/-- `create_winding_cte` (`/repo/feax/mechanics/copv.py:464-517`). -/
def windingCte (plyAlpha : Arr2 ℝ 3) (layup : List (String × ℝ)) (fillAlpha : Option (Arr2 ℝ 3)) (dropDomeHoop : Bool) :
    List (List (Arr2 ℝ 3)) :=
  (List.range g.cells.length).map fun e =>
    let shell := (g.cellFrames layup dropDomeHoop e).map fun R => rotate2 plyAlpha R
    match fillAlpha with
    | none => shell
    | some C => if g.cellZone.getD e 0 ≠ 1 then shell else List.replicate layup.length C

/-- `cell_fiber_directions` (`/repo/feax/mechanics/copv.py:520-547`). -/
def fiberDirections (layup : List (String × ℝ)) (dropDomeHoop shellOnly : Bool) : List (List (Fin 3 → ℝ)) :=
  (List.range g.cells.length).map fun e => (g.cellFrames layup dropDomeHoop e).map fun R i =>
    R i 0 * if shellOnly = true ∧ g.cellZone.getD e 0 = 1 then 0 else 1

/-- `cell_triads` (`/repo/feax/mechanics/copv.py:558-567`): the triad of every cell. -/
def cellTriads : List Triad := (List.range g.cells.length).map fun e => cellTriad (g.cellNodes e) g.axis

/-- `cell_winding_angle_deg` (`/repo/feax/mechanics/copv.py:550-555`). -/
def windingAngleDeg : List ℝ :=
  (List.range g.cells.length).map fun e => windingAngle g.polarRadius (cellTriad (g.cellNodes e) g.axis).radius * 180 / Real.pi

end CopvGeom

end

end Verif.Model
