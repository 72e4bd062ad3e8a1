import Mathlib.Algebra.Order.Field.Basic
import Mathlib.Algebra.Order.Group.Abs
import Mathlib.Data.List.FinRange

/-!
# `feax.flat.unitcell`: corners, edges and faces of a unit cell, with the tolerances of the code

`Model/Periodic.lean` has the same tests with exact comparison.
-/

namespace Verif.Model

variable {K : Type*} [Field K] [LinearOrder K] {d : ℕ}

/-- Bounding box and tolerances of a `UnitCell` (`/repo/feax/flat/unitcell.py:12,28-37`); `rtol` is NumPy's default `1e-5`,
which the code does not change. -/
structure CellBox (K : Type*) (d : ℕ) where
  lb : Fin d → K
  ub : Fin d → K
  atol : K
  rtol : K

namespace CellBox

/-- `np.isclose(a, b, atol=self.atol)`. -/
def close (c : CellBox K d) (a b : K) : Bool := decide (|a - b| ≤ c.atol + c.rtol * |b|)

/-- The number of coordinates close to a bound (`/repo/feax/flat/unitcell.py:158-160,183-185,211-213`). -/
def hits (c : CellBox K d) (p : Fin d → K) : ℕ :=
  ((List.finRange d).filter fun i => c.close (p i) (c.lb i) || c.close (p i) (c.ub i)).length

/-- `is_corner` (`/repo/feax/flat/unitcell.py:140-161`). -/
def isCorner (c : CellBox K d) (p : Fin d → K) : Bool := c.hits p == d

/-- `is_edge` (`/repo/feax/flat/unitcell.py:163-189`). -/
def isEdge (c : CellBox K d) (p : Fin d → K) : Bool := (c.hits p : ℤ) == (d : ℤ) - 1 && !c.isCorner p

/-- `is_face` (`/repo/feax/flat/unitcell.py:191-220`). -/
def isFace (c : CellBox K d) (p : Fin d → K) : Bool :=
  (c.hits p : ℤ) == (d : ℤ) - 2 && (!c.isEdge p && !c.isCorner p)

/-- `itertools.product([0, 1], repeat=dim)`. -/
def bitLists : ℕ → List (List Bool)
  | 0 => [[]]
  | n + 1 => (bitLists n).map (false :: ·) ++ (bitLists n).map (true :: ·)

/-- `corners` (`/repo/feax/flat/unitcell.py:114-138`). -/
def corners (c : CellBox K d) : List (Fin d → K) :=
  (bitLists d).map fun bits i => if bits.getD i false then c.ub i else c.lb i

end CellBox

/-- `cell_centers` (`/repo/feax/flat/unitcell.py:72-90`), one cell: the mean of its nodes. -/
def cellCenter (pts : List (Fin d → K)) : Fin d → K := fun i => (pts.map (· i)).sum / (pts.length : K)

end Verif.Model
