import Verif.Model.Arr
import Verif.Model.Solution
import Verif.Model.Asd
import Mathlib.Algebra.Field.Defs

/-!
# `feax.mesh`: structured rectangles, gmsh import, face selection
-/

namespace Verif.Model

/-- `Mesh` (`/repo/feax/mesh.py:18-54`): points, connectivity, element type. -/
structure FeMesh (P : Type*) where
  points : List P
  cells : List (List ℤ)
  eleType : String
  deriving DecidableEq

section Rect
variable {K : Type*} [Field K]

/-- `np.linspace(a, b, n)` in exact arithmetic. -/
def linspace (a b : K) (n : ℕ) : List K :=
  (List.range n).map fun i : ℕ => a + (i : K) * ((b - a) / ((n - 1 : ℕ) : K))

/-- `meshgrid(x, y, indexing='ij')`, flattened and stacked (`/repo/feax/mesh.py:487-490`). -/
def gridPoints (xs ys : List K) : List (K × K) := (xs.map fun x => ys.map fun y => (x, y)).flatten

/-- The cell loop `for i in range(Nx): for j in range(Ny)`, with the local nodes given as offsets on a grid with
`stride` intervals per cell and `nyf` nodes per column (`/repo/feax/mesh.py:492-499`, `518-540`, `565-581`). -/
def rectCells (nx ny stride nyf : ℕ) (offs : List (ℕ × ℕ)) : List (List ℕ) :=
  (List.range nx).flatMap fun i => (List.range ny).map fun j =>
    offs.map fun o => (stride * i + o.1) * nyf + (stride * j + o.2)

/-- `node_map = full(n, -1); node_map[ids] = arange(len(ids))` (`/repo/feax/mesh.py:437-439`, `542-543`). -/
def compactMap (n : ℕ) (ids : List ℕ) : List ℤ :=
  scatterSet (List.replicate n (-1)) ids ((List.range ids.length).map Int.ofNat)

/-- Renumbering to the used nodes (`/repo/feax/mesh.py:541-545`). Simplification: the `used` mask is computed by
membership instead of being filled in the loop. -/
def compactMesh (points : List (K × K)) (cells : List (List ℕ)) (ty : String) : FeMesh (K × K) :=
  let ids := (List.range points.length).filter fun n => cells.flatten.contains n
  let map := compactMap points.length ids
  { points := gather (0, 0) points ids
    cells := cells.map fun c => c.map fun n => map.getD n 0
    eleType := ty }

/-- `rectangle_mesh` (`/repo/feax/mesh.py:447-546`) and `_rectangle_mesh_quad9` (`549-586`). -/
def rectangleMesh (nx ny : ℕ) (lx ly x0 y0 : K) (ty : String) : Except PyErr (FeMesh (K × K)) :=
  if ty = "QUAD4" then
    .ok { points := gridPoints (linspace x0 (x0 + lx) (nx + 1)) (linspace y0 (y0 + ly) (ny + 1))
          cells := (rectCells nx ny 1 (ny + 1) [(0, 0), (1, 0), (1, 1), (0, 1)]).map fun c => c.map Int.ofNat
          eleType := "QUAD4" }
  else if ty = "QUAD8" then
    .ok (compactMesh (gridPoints (linspace x0 (x0 + lx) (2 * nx + 1)) (linspace y0 (y0 + ly) (2 * ny + 1)))
      (rectCells nx ny 2 (2 * ny + 1) [(0, 0), (2, 0), (2, 2), (0, 2), (1, 0), (2, 1), (1, 2), (0, 1)]) "QUAD8")
  else if ty = "QUAD9" then
    .ok (compactMesh (gridPoints (linspace x0 (x0 + lx) (2 * nx + 1)) (linspace y0 (y0 + ly) (2 * ny + 1)))
      (rectCells nx ny 2 (2 * ny + 1) [(0, 0), (2, 0), (2, 2), (0, 2), (1, 0), (2, 1), (1, 2), (0, 1), (1, 1)]) "QUAD9")
  else .error .valueError

end Rect

/-! ## gmsh models -/

/-- What `gmsh.model.mesh.getNodes()` and `getElements(dim, -1)` return: node tags with coordinates, and per element
type the concatenated node tags. -/
structure GmshModel (P : Type*) where
  tags : List ℕ
  coords : List P
  blocks : List (ℕ × List ℕ)

/-- First block of the element type (`/repo/feax/mesh.py:410-433`, `/repo/feax/gene/adaptive.py:242-249`), `reshape`d
into rows of `npe` node tags. -/
def findBlock {P : Type*} (g : GmshModel P) (etype npe : ℕ) : Except PyErr (List (List ℕ)) :=
  match g.blocks.find? (fun b => b.1 == etype) with
  | none => .error .runtimeError
  | some b =>
    if npe ∣ b.2.length then
      .ok ((List.range (b.2.length / npe)).map fun r => (b.2.drop (r * npe)).take npe)
    else .error .valueError

/-- Reading back a gmsh model by `box_mesh`, `sphere_mesh`, `cylinder_mesh` and `_extract_tet4`
(`/repo/feax/mesh.py:401-442`, `663-692`, `819-848`; `/repo/feax/gene/adaptive.py:238-255`): node `tag - 1` is taken as
the position in the coordinate array; the nodes are then renumbered. Simplification: tags are at least 1. -/
def readGmsh {P : Type} [Inhabited P] (g : GmshModel P) (etype npe : ℕ) (ty : String) : Except PyErr (FeMesh P) := do
  let cells1 ← findBlock g etype npe
  let cells := cells1.map fun c => c.map fun t => t - 1
  let ids := sortUnique cells.flatten
  if ids.any (fun n => decide (g.coords.length ≤ n)) then .error .indexError
  else
    let map := compactMap g.coords.length ids
    .ok { points := gather default g.coords ids
          cells := cells.map fun c => c.map fun n => map.getD n 0
          eleType := ty }

/-- Reading back by `refine_mesh` (`/repo/feax/mesh.py:975-1005`): `remap` from tag to position. Tags beyond the largest
known one raise. -/
def readGmshRemap {P : Type} (g : GmshModel P) (etype npe : ℕ) (ty : String) : Except PyErr (FeMesh P) := do
  if g.tags = [] then .error .valueError
  else
    let cells1 ← findBlock g etype npe
    let maxTag := g.tags.foldl max 0
    let remap := scatterSet (List.replicate (maxTag + 1) (-1)) g.tags ((List.range g.tags.length).map Int.ofNat)
    if cells1.flatten.any (fun t => decide (maxTag < t)) then .error .indexError
    else
      .ok { points := g.coords
            cells := cells1.map fun c => c.map fun t => remap.getD t 0
            eleType := ty }

/-! ## `Mesh.from_gmsh` -/

/-- meshio cell type to feax element type (`/repo/feax/mesh.py:101-112`). -/
def meshioToFeax : String → Option String
  | "tetra" => some "TET4"
  | "tetra10" => some "TET10"
  | "hexahedron" => some "HEX8"
  | "hexahedron20" => some "HEX20"
  | "hexahedron27" => some "HEX27"
  | "triangle" => some "TRI3"
  | "triangle6" => some "TRI6"
  | "quad" => some "QUAD4"
  | "quad8" => some "QUAD8"
  | "quad9" => some "QUAD9"
  | _ => none

/-- `available_types[feax_type] = cell_block.data` for a dictionary in insertion order. -/
def dictSet {β : Type*} (d : List (String × β)) (k : String) (v : β) : List (String × β) :=
  if d.any (fun p => p.1 == k) then d.map (fun p => if p.1 == k then (k, v) else p) else d ++ [(k, v)]

/-- The loop over blocks (`/repo/feax/mesh.py:115-120`). -/
def availableTypes {β : Type*} (blocks : List (String × β)) : List (String × β) :=
  blocks.foldl (fun d b => match meshioToFeax b.1 with
    | some ft => dictSet d ft b.2
    | none => d) []

/-- The preference order (`/repo/feax/mesh.py:131`). -/
def gmshPriority : List String := ["HEX8", "HEX20", "HEX27", "TET4", "TET10", "QUAD4", "QUAD8", "TRI3", "TRI6"]

/-- `Mesh.from_gmsh` (`/repo/feax/mesh.py:57-146`): element type and cell block chosen. -/
def fromGmsh {β : Type*} (blocks : List (String × β)) (elementType : Option String) : Except PyErr (String × β) :=
  let avail := availableTypes blocks
  match avail with
  | [] => .error .valueError
  | first :: _ =>
    let ty := match elementType with
      | some t => t
      | none => ((gmshPriority.find? fun t => avail.any fun p => p.1 == t).getD first.1)
    match avail.find? fun p => p.1 == ty with
    | none => .error .valueError
    | some p => .ok (ty, p.2)

/-! ## Boundary faces -/

/-- `FiniteElement.get_boundary_conditions_inds` for one location function
(`/repo/feax/fe.py:267-318`), on points and connectivity with `faceInds` the local vertex numbers of each face: the
flags for all cells and faces, then `argwhere`. Simplification: node numbers are in range, so the gathers read the
node's coordinates. -/
def boundaryInds {P : Type*} [Inhabited P] (points : List P) (cells : List (List ℕ)) (faceInds : List (List ℕ))
    (loc : P → ℕ → Bool) : List (ℕ × ℕ) :=
  let flags := cells.map fun c => faceInds.map fun f =>
    f.all fun v => loc (points.getD (c.getD v 0) default) (c.getD v 0)
  ((List.range cells.length).flatMap fun c => (List.range faceInds.length).map fun f => (c, f)).filter fun cf =>
    (flags.getD cf.1 []).getD cf.2 false

/-- `location_fns[i].__code__.co_argcount` and the wrapping (`/repo/feax/fe.py:295-303`). -/
inductive LocationFn (P : Type*) where
  | one (f : P → Bool)
  | two (f : P → ℕ → Bool)
  | other

/-- `get_boundary_conditions_inds` over all location functions. -/
def boundaryIndsList {P : Type} [Inhabited P] (points : List P) (cells : List (List ℕ)) (faceInds : List (List ℕ)) :
    List (LocationFn P) → Except PyErr (List (List (ℕ × ℕ)))
  | [] => .ok []
  | l :: rest =>
    match l with
    | .other => .error .valueError
    | .one f => do
      let r ← boundaryIndsList points cells faceInds rest
      .ok (boundaryInds points cells faceInds (fun p _ => f p) :: r)
    | .two f => do
      let r ← boundaryIndsList points cells faceInds rest
      .ok (boundaryInds points cells faceInds f :: r)

/-- `Mesh.count_selected_faces` (`/repo/feax/mesh.py:148-183`). -/
def countSelectedFaces {P : Type*} [Inhabited P] (points : List P) (cells : List (List ℕ)) (faceInds : List (List ℕ))
    (loc : P → Bool) : ℕ :=
  (boundaryInds points cells faceInds fun p _ => loc p).length

/-- The node orders of `get_elements` (`/repo/feax/basis.py:67-121`). -/
def reOrder : String → Option (List ℕ)
  | "HEX8" => some [0, 1, 3, 2, 4, 5, 7, 6]
  | "HEX20" => some [0, 1, 3, 2, 4, 5, 7, 6, 8, 11, 13, 9, 16, 18, 19, 17, 10, 12, 15, 14]
  | "TET4" => some [0, 1, 2, 3]
  | "TET10" => some [0, 1, 2, 3, 9, 6, 8, 7, 5, 4]
  | "QUAD4" => some [0, 1, 3, 2]
  | "QUAD8" => some [0, 1, 3, 2, 4, 6, 7, 5]
  | "QUAD9" => some [0, 1, 3, 2, 4, 6, 7, 5, 8]
  | "TRI3" => some [0, 1, 2]
  | "TRI6" => some [0, 1, 2, 5, 3, 4]
  | _ => none

/-- `reorder_inds` (`/repo/feax/basis.py:129-152`) of one index: the position holding it. -/
def reorderInd (order : List ℕ) (ind : ℕ) : ℕ := order.idxOf ind

end Verif.Model
