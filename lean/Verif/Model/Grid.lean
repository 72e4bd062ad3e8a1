import Verif.Model.Arr
import Verif.Model.Solution
import Mathlib.Algebra.Order.Floor.Ring
import Mathlib.Data.List.Dedup

/-!
# `feax.spgrid.StructuredGrid`: the implicit uniform HEX8 grid
-/

namespace Verif.Model

/-- `np.unique` of an integer array (flattened): sorted, without duplicates
(`/repo/feax/spgrid.py:91,168,176,186`, `/repo/feax/narrowband.py:44,80,87`). -/
def unique (xs : List ℕ) : List ℕ := xs.dedup.insertionSort (· ≤ ·)

/-- `StructuredGrid`: cells per axis (`/repo/feax/spgrid.py:42-45`). Spacing and origin are passed where
used. -/
structure Grid where
  nx : ℕ
  ny : ℕ
  nz : ℕ
deriving DecidableEq, Repr

/-- `_HEX8_OFFSETS` (`/repo/feax/spgrid.py:23-25`). -/
def hexOffsets : List (ℕ × ℕ × ℕ) :=
  [(0, 1, 1), (0, 0, 1), (0, 0, 0), (0, 1, 0), (1, 1, 1), (1, 0, 1), (1, 0, 0), (1, 1, 0)]

namespace Grid
variable (g : Grid)

/-- `num_cells` (`/repo/feax/spgrid.py:101-103`). -/
def numCells : ℕ := g.nx * g.ny * g.nz

/-- `num_nodes` (`/repo/feax/spgrid.py:105-107`). -/
def numNodes : ℕ := (g.nx + 1) * (g.ny + 1) * (g.nz + 1)

/-- `cell_ijk` (`/repo/feax/spgrid.py:109-113`), one cell id. -/
def cellIjk (e : ℕ) : ℕ × ℕ × ℕ :=
  let nynz := g.ny * g.nz
  let cx := e / nynz
  let r := e % nynz
  (cx, r / g.nz, r % g.nz)

/-- `cell_id` (`/repo/feax/spgrid.py:141-144`). -/
def cellId (c : ℕ × ℕ × ℕ) : ℕ := (c.1 * g.ny + c.2.1) * g.nz + c.2.2

/-- `node_id` (`/repo/feax/spgrid.py:136-139`). -/
def nodeId (n : ℕ × ℕ × ℕ) : ℕ := (n.1 * (g.ny + 1) + n.2.1) * (g.nz + 1) + n.2.2

/-- The index triple of a node, as computed by `node_coords` (`/repo/feax/spgrid.py:125-129`). -/
def nodeIjk (n : ℕ) : ℕ × ℕ × ℕ :=
  let ny1 := g.ny + 1
  let nz1 := g.nz + 1
  let i := n / (ny1 * nz1)
  let r := n % (ny1 * nz1)
  (i, r / nz1, r % nz1)

/-- `cell_to_nodes` (`/repo/feax/spgrid.py:115-123`), one cell. -/
def cellToNodes (e : ℕ) : List ℕ :=
  let c := g.cellIjk e
  hexOffsets.map fun o =>
    ((c.1 + o.1) * (g.ny + 1) + (c.2.1 + o.2.1)) * (g.nz + 1) + (c.2.2 + o.2.2)

/-- `nodes_where` (`/repo/feax/spgrid.py:146-154`): `meshgrid(indexing='ij')` and boolean masking list the
triples with the last index fastest. -/
def nodesWhere (pred : ℕ × ℕ × ℕ → Bool) : List ℕ :=
  (((List.range (g.nx + 1)).flatMap fun i => (List.range (g.ny + 1)).flatMap fun j =>
    (List.range (g.nz + 1)).map fun k => (i, j, k)).filter pred).map g.nodeId

/-- `cells_where` (`/repo/feax/spgrid.py:93-99`) with the predicate as a function of the cell (its
centroid is). -/
def cellsWhere (pred : ℕ → Bool) : List ℕ := (List.range g.numCells).filter pred

/-- `range(-margin, margin + 1)`. -/
def offsetRange (m : ℕ) : List ℤ := (List.range (2 * m + 1)).map fun i : ℕ => (i : ℤ) - (m : ℤ)

/-- The cell shifted by an offset if in bounds (`/repo/feax/spgrid.py:182-185`). -/
def shiftCell (c : ℕ × ℕ × ℕ) (d : ℤ × ℤ × ℤ) : Option ℕ :=
  let jx : ℤ := c.1 + d.1
  let jy : ℤ := c.2.1 + d.2.1
  let jz : ℤ := c.2.2 + d.2.2
  if 0 ≤ jx ∧ jx < g.nx ∧ 0 ≤ jy ∧ jy < g.ny ∧ 0 ≤ jz ∧ jz < g.nz then
    some ((jx * g.ny + jy) * g.nz + jz).toNat
  else none

/-- `dilate_cells` (`/repo/feax/spgrid.py:172-186`). `np.concatenate` of at least one piece: the margin is
positive. -/
def dilateCells (cells : List ℕ) (margin : ℤ) : List ℕ :=
  if margin ≤ 0 then unique cells
  else
    let rng := offsetRange margin.toNat
    let pieces := rng.flatMap fun dx => rng.flatMap fun dy => rng.map fun dz =>
      cells.filterMap fun e => g.shiftCell (g.cellIjk e) (dx, dy, dz)
    unique pieces.flatten

section Geometry
variable {K : Type*} [Field K]

/-- `origin + ijk * spacing` per axis (`/repo/feax/spgrid.py:130`). -/
def nodeCoords (spacing origin : K × K × K) (n : ℕ) : K × K × K :=
  let c := g.nodeIjk n
  (origin.1 + (c.1 : K) * spacing.1, origin.2.1 + (c.2.1 : K) * spacing.2.1,
    origin.2.2 + (c.2.2 : K) * spacing.2.2)

/-- `cell_centroids` (`/repo/feax/spgrid.py:132-134`). -/
def cellCentroid (spacing origin : K × K × K) (e : ℕ) : K × K × K :=
  let c := g.cellIjk e
  (origin.1 + ((c.1 : K) + 1 / 2) * spacing.1, origin.2.1 + ((c.2.1 : K) + 1 / 2) * spacing.2.1,
    origin.2.2 + ((c.2.2 : K) + 1 / 2) * spacing.2.2)

variable [LinearOrder K] [FloorRing K]

/-- `point_cells` for one point (`/repo/feax/spgrid.py:78-85`), exact arithmetic, positive spacing (a zero
spacing divides by zero; numpy then yields nan/inf and an undefined cast). -/
def pointCell (spacing origin p : K × K × K) : ℤ :=
  let i := ⌊(p.1 - origin.1) / spacing.1⌋
  let j := ⌊(p.2.1 - origin.2.1) / spacing.2.1⌋
  let k := ⌊(p.2.2 - origin.2.2) / spacing.2.2⌋
  if 0 ≤ i ∧ i < g.nx ∧ 0 ≤ j ∧ j < g.ny ∧ 0 ≤ k ∧ k < g.nz then (i * g.ny + j) * g.nz + k else -1

/-- `voxelize` (`/repo/feax/spgrid.py:87-91`). -/
def voxelize (spacing origin : K × K × K) (pts : List (K × K × K)) : List ℕ :=
  unique (((pts.map (g.pointCell spacing origin)).filter fun c => decide (0 ≤ c)).map Int.toNat)

end Geometry

/-- A materialised mesh: coordinates of the used nodes and renumbered connectivity. -/
structure SubMesh (P : Type*) where
  points : List P
  cells : List (List ℕ)

/-- `np.unique(cells)` and `np.searchsorted(used, cells)` (`/repo/feax/spgrid.py:167-170`,
`/repo/feax/narrowband.py:79-93`): the used nodes in increasing order, and the connectivity in terms of
their positions. -/
def compactMesh {P : Type*} (coords : ℕ → P) (cells : List (List ℕ)) : List ℕ × SubMesh P :=
  let used := unique cells.flatten
  (used, ⟨used.map coords, cells.map fun c => c.map (searchsorted used)⟩)

/-- `to_mesh` (`/repo/feax/spgrid.py:156-170`); `none` means the whole grid. -/
def toMesh {K : Type*} [Field K] (spacing origin : K × K × K) (ids : Option (List ℕ)) : SubMesh (K × K × K) :=
  let ids := match ids with
    | none => List.range g.numCells
    | some l => l
  (compactMesh (g.nodeCoords spacing origin) (ids.map g.cellToNodes)).2

end Grid

/-! ## Fitting a grid to points -/

section Fit
variable {K : Type*} [Field K] [LinearOrder K] [FloorRing K]

/-- One axis of `StructuredGrid.fit` with `h` (`/repo/feax/spgrid.py:64-68`): origin and number of cells. -/
def fitAxisH (lo hi h : K) (pad : ℤ) (origin : Option K) : K × ℤ :=
  let org := match origin with
    | none => lo - pad * h
    | some o => o
  (org, max 1 ⌈(hi + pad * h - org) / h⌉)

/-- One axis of `StructuredGrid.fit` with `dims` (`/repo/feax/spgrid.py:69-72`): origin and spacing. -/
def fitAxisDims (lo hi : K) (dims : ℤ) (origin : Option K) : K × K :=
  let org := match origin with
    | none => lo
    | some o => o
  (org, (hi - lo) / (max dims 1 : ℤ))

/-- Rounding up to a multiple of `align` (`/repo/feax/spgrid.py:75-76`); `0` (or `None`) leaves it. -/
def alignUp (dims align : ℤ) : ℤ :=
  if align = 0 then dims else (dims + align - 1) / align * align

/-- `pts.min(0)` / `pts.max(0)`, one axis of a nonempty array (`/repo/feax/spgrid.py:62`). -/
def axisMin (x : K) (xs : List K) : K := xs.foldl min x

/-- See `axisMin`. -/
def axisMax (x : K) (xs : List K) : K := xs.foldl max x

/-- One fitted axis: number of cells, spacing, origin. -/
abbrev FitAxis (K : Type*) := ℤ × K × K

/-- One axis of `fit` (`/repo/feax/spgrid.py:62-77`): `h` takes precedence over `dims`; neither is an
error. -/
def fitAxis (x : K) (xs : List K) (h : Option K) (dims : Option ℤ) (pad : ℤ) (origin : Option K) (align : ℤ) :
    Except PyErr (FitAxis K) :=
  let lo := axisMin x xs
  let hi := axisMax x xs
  match h, dims with
  | some h, _ =>
    let r := fitAxisH lo hi h pad origin
    .ok (alignUp r.2 align, h, r.1)
  | none, some d =>
    let r := fitAxisDims lo hi d origin
    .ok (alignUp d align, r.2, r.1)
  | none, none => .error .valueError

/-- `StructuredGrid.fit` (`/repo/feax/spgrid.py:47-77`) on a nonempty list of points (`min` of an empty array
raises `ValueError`); `h`, `dims`, `origin` per axis. A negative count becomes a grid without cells. -/
def fit (points : List (K × K × K)) (h : Option (K × K × K)) (dims : Option (ℤ × ℤ × ℤ)) (pad : ℤ)
    (origin : Option (K × K × K)) (align : ℤ) : Except PyErr (Grid × (K × K × K) × (K × K × K)) :=
  match points with
  | [] => .error .valueError
  | p :: ps =>
    match fitAxis p.1 (ps.map (·.1)) (h.map (·.1)) (dims.map (·.1)) pad (origin.map (·.1)) align,
      fitAxis p.2.1 (ps.map (·.2.1)) (h.map (·.2.1)) (dims.map (·.2.1)) pad (origin.map (·.2.1)) align,
      fitAxis p.2.2 (ps.map (·.2.2)) (h.map (·.2.2)) (dims.map (·.2.2)) pad (origin.map (·.2.2)) align with
    | .ok a, .ok b, .ok c =>
      .ok (⟨a.1.toNat, b.1.toNat, c.1.toNat⟩, (a.2.1, b.2.1, c.2.1), (a.2.2, b.2.2, c.2.2))
    | _, _, _ => .error .valueError

end Fit

end Verif.Model
