import Verif.Model.Grid

/-!
# `feax.narrowband` and `feax.spgrid.SparseDesign`
-/

namespace Verif.Model

open Grid (SubMesh compactMesh)

/-- `_node_adjacent_cells` (`/repo/feax/narrowband.py:41-46`). Simplification: seed cells and node numbers
out of range (numpy raises `IndexError`) are ignored. -/
def nodeAdjacentCells (cells : List (List ℕ)) (numNodes : ℕ) (seed : List ℕ) : List ℕ :=
  let nodes := unique (seed.map fun e => cells.getD e []).flatten
  let seedNodes := (List.range numNodes).map fun n => decide (n ∈ nodes)
  (List.range cells.length).filter fun c => (cells.getD c []).any fun n => seedNodes.getD n false

/-- `NarrowBand` (`/repo/feax/narrowband.py:49-73`). -/
structure NarrowBand (P : Type*) where
  mesh : SubMesh P
  activeCells : List ℕ
  nodeMap : List ℕ
  numFullCells : ℕ
  numFullNodes : ℕ

/-- `NarrowBand.__init__` on a `Mesh` (`/repo/feax/narrowband.py:76-77,84-99`). Simplification: an active cell
out of range (`IndexError`) yields an empty cell, a node out of range the point `d`. -/
def bandOfMesh {P : Type*} (d : P) (cells : List (List ℕ)) (points : List P) (active : List ℕ) : NarrowBand P :=
  let sub := compactMesh (fun n => points.getD n d) (active.map fun e => cells.getD e [])
  ⟨sub.2, active, sub.1, cells.length, points.length⟩

/-- `NarrowBand.__init__` on a `StructuredGrid` (`/repo/feax/narrowband.py:76-82,91-99`). -/
def bandOfGrid {K : Type*} [Field K] (g : Grid) (spacing origin : K × K × K) (active : List ℕ) :
    NarrowBand (K × K × K) :=
  let sub := compactMesh (g.nodeCoords spacing origin) (active.map g.cellToNodes)
  ⟨sub.2, active, sub.1, g.numCells, g.numNodes⟩

/-- `range(int(margin))` applications of the dilation (`/repo/feax/narrowband.py:127-128,259-261,275-277`). -/
def dilateRings (cells : List (List ℕ)) (numNodes : ℕ) : ℕ → List ℕ → List ℕ
  | 0, s => s
  | m + 1, s => dilateRings cells numNodes m (nodeAdjacentCells cells numNodes s)

/-- The active cells of `NarrowBand.from_field` (`/repo/feax/narrowband.py:107-131`): `above c` is
`field > threshold` for a cell field and the same of node `c` for a node field. -/
def fromFieldCells (cells : List (List ℕ)) (numNodes : ℕ) (above : ℕ → Bool) (cellField : Bool) (margin : ℕ)
    (keep : Option (List ℕ)) : List ℕ :=
  let seed := (List.range cells.length).filter fun c =>
    if cellField then above c else (cells.getD c []).any above
  let active := dilateRings cells numNodes margin seed
  match keep with
  | none => active
  | some k => unique (active ++ k)

namespace NarrowBand
variable {P : Type*} (b : NarrowBand P) {α : Type*}

/-- `gather_cells` (`/repo/feax/narrowband.py:142-145`) of a scalar cell field:
`reshape(num_full_cells, -1).squeeze()[active_cells]`. With a single cell, `squeeze` leaves a 0-d array and
indexing it raises. -/
def gatherCells (d : α) (full : List α) : Except PyErr (List α) :=
  if full.length ≠ b.numFullCells then .error .valueError
  else if b.numFullCells = 1 then .error .indexError
  else if b.activeCells.any (fun c => decide (b.numFullCells ≤ c)) then .error .indexError
  else .ok (gather d full b.activeCells)

/-- `scatter_cells` (`/repo/feax/narrowband.py:147-151`): `out[active_cells] = ravel(band)`; a length-one
array is broadcast, any other length mismatch raises. -/
def scatterCells (fill : α) (band : List α) : Except PyErr (List α) :=
  if b.activeCells.any (fun c => decide (b.numFullCells ≤ c)) then .error .indexError
  else
    let out := List.replicate b.numFullCells fill
    if band.length = b.activeCells.length then .ok (scatterSet out b.activeCells band)
    else match band with
      | [x] => .ok (scatterSet out b.activeCells (b.activeCells.map fun _ => x))
      | _ => .error .valueError

/-- `scatter_sol` (`/repo/feax/narrowband.py:153-161`). -/
def scatterSol (zero : α) (sol : List α) (vec : ℕ) : Except PyErr (List α) :=
  if sol.length ≠ b.nodeMap.length * vec then .error .valueError
  else
    let sb := reshapeRows b.nodeMap.length vec sol
    let out := List.replicate b.numFullNodes (List.replicate vec zero)
    .ok (scatterSet out b.nodeMap sb).flatten

/-- `gather_sol` (`/repo/feax/narrowband.py:163-166`). -/
def gatherSol (sol : List α) (vec : ℕ) : Except PyErr (List α) :=
  if sol.length ≠ b.numFullNodes * vec then .error .valueError
  else .ok (gather [] (reshapeRows b.numFullNodes vec sol) b.nodeMap).flatten

/-- `gather_params` on the volume variables (`/repo/feax/narrowband.py:169-194`); a variable is the list of
its entries along the leading axis. Surface variables must be empty. -/
def gatherParams (d : α) (volume : List (List α)) (numSurface : ℕ) : Except PyErr (List (List α)) :=
  if numSurface ≠ 0 then .error .valueError
  else volume.mapM fun v =>
    if v.length = b.numFullCells then .ok (gather d v b.activeCells)
    else if v.length = b.numFullNodes then .ok (gather d v b.nodeMap)
    else .error .valueError

/-- `scatter_params` (`/repo/feax/narrowband.py:196-214`). -/
def scatterParams (fill : α) (volume : List (List α)) : Except PyErr (List (List α)) :=
  volume.mapM fun v =>
    if v.length = b.activeCells.length then
      .ok (scatterSet (List.replicate b.numFullCells fill) b.activeCells v)
    else if v.length = b.nodeMap.length then
      .ok (scatterSet (List.replicate b.numFullNodes fill) b.nodeMap v)
    else .error .valueError

end NarrowBand

/-! ## SupersetBand -/

/-- `SupersetBand` (`/repo/feax/narrowband.py:242-249`): the mesh, the two ring counts, and the current
superset (`band.active_cells`, `None` before the first extraction). -/
structure SupersetBand where
  cells : List (List ℕ)
  numNodes : ℕ
  margin : ℕ
  guard : ℕ
  superset : Option (List ℕ)

/-- `reextract` (`/repo/feax/narrowband.py:251-266`). -/
def SupersetBand.reextract (s : SupersetBand) (active : List ℕ) : SupersetBand :=
  { s with superset := some (dilateRings s.cells s.numNodes s.margin active) }

/-- `needs_reextract` (`/repo/feax/narrowband.py:268-278`): `_superset_mask[guarded].all()`. -/
def SupersetBand.needsReextract (s : SupersetBand) (active : List ℕ) : Bool :=
  match s.superset with
  | none => true
  | some sup =>
    let mask := (List.range s.cells.length).map fun c => decide (c ∈ sup)
    !((dilateRings s.cells s.numNodes s.guard active).all fun c => mask.getD c false)

/-- One iteration of the documented loop (`/repo/feax/narrowband.py:232-238`): re-extract if told to. -/
def SupersetBand.iterate (s : SupersetBand) (active : List ℕ) : SupersetBand :=
  if s.needsReextract active then s.reextract active else s

/-! ## SparseDesign -/

/-- `SparseDesign` (`/repo/feax/spgrid.py:206-219`): sorted ids and values. -/
structure SparseDesign (α : Type*) where
  ids : List ℕ
  vals : List α

/-- `.astype(np.int32)` of an int64: wraps modulo `2^32`. -/
def toInt32 (z : ℤ) : ℤ := (z + 2 ^ 31) % 2 ^ 32 - 2 ^ 31

namespace SparseDesign
variable {α : Type*}

/-- `SparseDesign.__init__` (`/repo/feax/spgrid.py:214-219`). Ids are natural numbers (a negative id is not
rejected by the code). `np.argsort` is not stable; on distinct ids this makes no difference. -/
def mk' (d : α) (ids : List ℕ) (vals : List α) : Except PyErr (SparseDesign α) :=
  if ids.all (fun i => decide (i < 2 ^ 31)) then
    .ok ⟨gather 0 ids (argsort ids), gather d vals (argsort ids)⟩
  else .error .assertionError

/-- `uniform` (`/repo/feax/spgrid.py:221-224`). -/
def uniform (d : α) (ids : List ℕ) (v : α) : Except PyErr (SparseDesign α) :=
  mk' d ids (ids.map fun _ => v)

/-- `gather` for one query (`/repo/feax/spgrid.py:226-234`): the query is cast to int32 first;
`searchsorted` of a negative number is 0. -/
def lookup (s : SparseDesign α) (q : ℤ) (default : α) : α :=
  let q := toInt32 q
  if s.ids.length = 0 then default
  else
    let pos := if q < 0 then 0 else searchsorted s.ids q.toNat
    let posc := min pos (s.ids.length - 1)
    if pos < s.ids.length ∧ (s.ids.getD posc 0 : ℤ) = q then s.vals.getD posc default else default

/-- `update` (`/repo/feax/spgrid.py:236-244`). -/
def update (d : α) (s : SparseDesign α) (ids : List ℕ) (vals : List α) : Except PyErr (SparseDesign α) :=
  if s.ids.length ≠ 0 then
    let keep := s.ids.map fun i => !decide (i ∈ ids)
    mk' d (compress s.ids keep ++ ids) (compress s.vals keep ++ vals)
  else mk' d ids vals

/-- `active_ids` (`/repo/feax/spgrid.py:246-248`). -/
def activeIds (s : SparseDesign α) (above : α → Bool) : List ℕ := compress s.ids (s.vals.map above)

/-- `band_cells` (`/repo/feax/spgrid.py:250-255`). -/
def bandCells (s : SparseDesign α) (g : Grid) (above : α → Bool) (margin : ℤ) (keep : Option (List ℕ)) :
    List ℕ :=
  let active := g.dilateCells (s.activeIds above) margin
  match keep with
  | none => active
  | some k => unique (active ++ k)

end SparseDesign

end Verif.Model
