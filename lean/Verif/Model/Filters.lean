import Verif.Model.Grid
import Verif.Model.Solution
import Mathlib.Algebra.Order.Field.Basic
import Mathlib.Algebra.Order.Floor.Ring

/-!
# Filters for topology optimisation (`/repo/feax/gene/filters.py`)

Square root, norm and exponential are parameters; numbers are elements of an ordered field.
-/

namespace Verif.Model

/-! ### The density filter -/

/-- `weight_type` (`/repo/feax/gene/filters.py:229-236`). -/
inductive WeightKind
  | cone | gaussian | constant | other
  deriving DecidableEq

section
variable {K : Type*} [Field K] [LinearOrder K]

/-- The weight of a neighbour at distance `d` (`/repo/feax/gene/filters.py:229-236`). -/
def filterWeight (exp : K → K) (kind : WeightKind) (radius d : K) : Except PyErr K :=
  match kind with
  | .cone => .ok (max 0 (radius - d))
  | .gaussian => .ok (exp (-(d / radius) ^ 2))
  | .constant => .ok 1
  | .other => .error .valueError

/-- `range(0, num_nodes, batch_size)` with the end of each batch (`/repo/feax/gene/filters.py:212-213`). -/
def batchRanges (n batch : ℕ) : List (ℕ × ℕ) :=
  (List.range ((n + batch - 1) / batch)).map fun k => (k * batch, min (k * batch + batch) n)

/-- The entries `(row, (column, weight))` of the weight matrix (`/repo/feax/gene/filters.py:206-241`); `dist i j` is
the norm of `points[i] - points[j]`. -/
def filterEntries (weight : K → Except PyErr K) (dist : ℕ → ℕ → K) (n : ℕ) (radius : K) (batch : ℕ) :
    Except PyErr (List (ℕ × (ℕ × K))) := do
  if batch = 0 then throw .valueError
  let rows ← ((batchRanges n batch).flatMap fun se => List.range' se.1 (se.2 - se.1)).mapM fun i =>
    ((List.range n).filter fun j => decide (dist i j ≤ radius)).mapM fun j => do
      let w ← weight (dist i j)
      return (i, (j, w))
  return rows.flatten

/-- `filter_fn` (`/repo/feax/gene/filters.py:315-327`): sparse matrix times vector over row sums plus `eps`. -/
def applyDensityFilter (entries : List (ℕ × (ℕ × K))) (n : ℕ) (eps : K) (rho : List K) : List K :=
  (List.range n).map fun i =>
    segSumAt (entries.map fun e => (e.1, e.2.2 * rho.getD e.2.1 0)) i / (segSumAt (entries.map fun e => (e.1, e.2.2)) i + eps)

/-- `create_density_filter` applied to a field (`/repo/feax/gene/filters.py:265-329`). -/
def densityFilter (norm : List K → K) (exp : K → K) (kind : WeightKind) (points : List (List K)) (radius : K) (batch : ℕ)
    (eps : K) (rho : List K) : Except PyErr (List K) := do
  let dist := fun i j => norm (List.zipWith (· - ·) (points.getD i []) (points.getD j []))
  let entries ← filterEntries (filterWeight exp kind radius) dist points.length radius batch
  return applyDensityFilter entries points.length eps rho

/-! ### The sensitivity filter -/

variable [FloorRing K]

/-- `offs` (`/repo/feax/gene/filters.py:443-445`). -/
def sensOffsets (rmin : K) : List (ℤ × ℤ × ℤ) :=
  let r := ⌈rmin⌉ - 1
  let rng := if r < 0 then [] else Grid.offsetRange r.toNat
  rng.flatMap fun di => rng.flatMap fun dj => rng.map fun dk => (di, dj, dk)

/-- `w0` (`/repo/feax/gene/filters.py:446-447`); `sqrt` is applied to an integer. -/
def coneWeight (sqrt : ℕ → K) (rmin : K) (d : ℤ × ℤ × ℤ) : K :=
  max 0 (rmin - sqrt (d.1 * d.1 + d.2.1 * d.2.1 + d.2.2 * d.2.2).toNat)

/-- `grid.cell_id` of the shifted and clipped indices, with the in-bounds test
(`/repo/feax/gene/filters.py:459-464`). -/
def neighbourCell (g : Grid) (e : ℕ) (d : ℤ × ℤ × ℤ) : Bool × ℕ :=
  let c := g.cellIjk e
  let jx : ℤ := c.1 + d.1
  let jy : ℤ := c.2.1 + d.2.1
  let jz : ℤ := c.2.2 + d.2.2
  let clip := fun (j : ℤ) (n : ℕ) => (max 0 (min j ((n : ℤ) - 1))).toNat
  (decide (0 ≤ jx ∧ jx < g.nx ∧ 0 ≤ jy ∧ jy < g.ny ∧ 0 ≤ jz ∧ jz < g.nz),
    g.cellId (clip jx g.nx, clip jy g.ny, clip jz g.nz))

/-- Position of the neighbour in the active set, or the sink (`/repo/feax/gene/filters.py:465-467`). -/
def activePos (ac : List ℕ) (q : Bool × ℕ) : ℕ :=
  let pos := min (searchsorted ac q.2) (ac.length - 1)
  if q.1 = true ∧ ac.getD pos 0 = q.2 then pos else ac.length

/-- `filt` (`/repo/feax/gene/filters.py:450-470`): for each active cell, the two sums over the offsets with positive weight.
`floor` is the `1e-3`, `eps` the `1e-30`. -/
def sensitivityFilter (g : Grid) (sqrt : ℕ → K) (rmin floor eps : K) (ac : List ℕ) (rho dc : List K) : List K :=
  let offs := (sensOffsets rmin).filter fun d => decide (0 < coneWeight sqrt rmin d)
  List.zipWith (fun e r =>
    let num := (offs.map fun d =>
      let idx := activePos ac (neighbourCell g e d)
      coneWeight sqrt rmin d * (rho ++ [0]).getD idx 0 * (dc ++ [0]).getD idx 0).sum
    let hs := (offs.map fun d => if (neighbourCell g e d).1 then coneWeight sqrt rmin d else 0).sum
    num / (hs * max floor r + eps)) ac rho

end

end Verif.Model
