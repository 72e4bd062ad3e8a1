import Verif.Model.Arr
import Mathlib.Algebra.Ring.Defs

/-!
# `feax.csr`: the CSR carrier, and `Problem._build_csr_assembly_structure`
-/

namespace Verif.Model

/-- `CSRMatrix` (`/repo/feax/csr.py:23-43`): values, row pointer, column of each slot, shape. -/
structure CSRMatrix (R : Type*) where
  data : List R
  indptr : List ℕ
  indices : List ℕ
  numRows : ℕ
  numCols : ℕ
deriving DecidableEq, Repr

namespace CSRMatrix
variable {R : Type*}

/-- `CSRMatrix._row_of_slot` (`/repo/feax/csr.py:74-78`). -/
def rowOfSlot (A : CSRMatrix R) : List ℕ := repeatByPtr A.indptr

/-- `CSRMatrix.with_data` (`/repo/feax/csr.py:70-72`). -/
def withData (A : CSRMatrix R) (d : List R) : CSRMatrix R := { A with data := d }

/-- `CSRMatrix.__matmul__` (`/repo/feax/csr.py:81-90`). -/
def matvec [CommRing R] (A : CSRMatrix R) (v : List R) : List R :=
  segmentSum (List.zipWith (· * ·) A.data (gather 0 v A.indices)) A.rowOfSlot A.numRows

/-- `CSRMatrix.rmatvec` (`/repo/feax/csr.py:92-100`), also `CSRTranspose.__matmul__`
(`/repo/feax/csr.py:168-169`). -/
def rmatvec [CommRing R] (A : CSRMatrix R) (w : List R) : List R :=
  segmentSum (List.zipWith (· * ·) A.data (gather 0 w A.rowOfSlot)) A.indices A.numCols

/-- `CSRMatrix.diagonal` (`/repo/feax/csr.py:115-121`). -/
def diagonal [AddCommMonoid R] (A : CSRMatrix R) : List R :=
  segmentSum
    (List.zipWith (fun (rc : ℕ × ℕ) x => if rc.1 = rc.2 then x else 0)
      (A.rowOfSlot.zip A.indices) A.data)
    A.rowOfSlot A.numRows

/-- `CSRMatrix.todense` (`/repo/feax/csr.py:124-127`): entry `(i, j)` of
`zeros((n, m)).at[rows, cols].add(data)`. -/
def todense [AddCommMonoid R] (A : CSRMatrix R) (i j : ℕ) : R :=
  if i < A.numRows ∧ j < A.numCols then
    ((((A.rowOfSlot.zip A.indices).zip A.data).filter
      (fun p => p.1 == (i, j))).map (·.2)).sum
  else 0

/-- `transpose_with_maps` (`/repo/feax/csr.py:130-141`). -/
def transposeWithMaps [Zero R] (J : CSRMatrix R) (tPerm tIndptr tIndices : List ℕ) : CSRMatrix R :=
  { data := gather 0 J.data tPerm, indptr := tIndptr, indices := tIndices,
    numRows := J.numCols, numCols := J.numRows }

/-- The product the iterative solvers use for a triangular view
(`/repo/feax/solvers/common.py:364-373`): `A v + A.T v - diag(A) * v`. -/
def matvecWithTriangularView [CommRing R] (A : CSRMatrix R) (v : List R) : List R :=
  List.zipWith (· - ·) (List.zipWith (· + ·) (A.matvec v) (A.rmatvec v))
    (List.zipWith (· * ·) A.diagonal v)

end CSRMatrix

/-- `CSRTranspose` (`/repo/feax/csr.py:144-172`): the lazy view returned by `A.T`. -/
structure CSRTranspose (R : Type*) where
  parent : CSRMatrix R

/-- `CSRTranspose.__matmul__` (`/repo/feax/csr.py:168-169`). -/
def CSRTranspose.matvec {R : Type*} [CommRing R] (T : CSRTranspose R) (v : List R) : List R := T.parent.rmatvec v

/-- `CSRTranspose.todense` (`/repo/feax/csr.py:171-172`). -/
def CSRTranspose.todense {R : Type*} [AddCommMonoid R] (T : CSRTranspose R) (i j : ℕ) : R := T.parent.todense j i

/-- Static CSR assembly maps stored on `Problem`
(`/repo/feax/problem.py:440-460`). `diagSlot` is `-1` where a row has no diagonal slot. -/
structure CsrMaps where
  nse : ℕ
  indptr : List ℕ
  indices : List ℕ
  rowOfSlot : List ℕ
  perm : List ℕ
  segIds : List ℕ
  slot : List ℕ
  diagSlots : List ℤ
  tPerm : List ℕ
  tIndptr : List ℕ
  tIndices : List ℕ
  structurallySymmetric : Bool
  fullSlot : List ℕ
deriving DecidableEq, Repr

/-- `keys = rows * n + cols` (`/repo/feax/problem.py:364`). -/
def coordKeys (n : ℕ) (rows cols : List ℕ) : List ℕ :=
  List.zipWith (fun r c => r * n + c) rows cols

/-- `seg_ids_sorted = cumsum(is_new) - 1` (`/repo/feax/problem.py:373`). -/
def segIdsOf (sortedKeys : List ℕ) : List ℕ :=
  (cumsum ((isNew sortedKeys).map Bool.toNat)).map (· - 1)

/-- `zeros(n+1); add.at(rows+1, 1); cumsum` (`/repo/feax/problem.py:380-382`, `426-428`). -/
def ptrOfRows (n : ℕ) (rows : List ℕ) : List ℕ :=
  cumsum (addAtOne (List.replicate (n + 1) 0) (rows.map (· + 1)))

/-- The full-entry slot lookup (`/repo/feax/problem.py:403-410`): `searchsorted`, clamp, compare,
else the discard bucket `nse`. -/
def fullSlotOf (uniqueKeys : List ℕ) (nse : ℕ) (k : ℕ) : ℕ :=
  if 0 < nse then
    let pos := searchsorted uniqueKeys k
    let posSafe := min pos (nse - 1)
    if uniqueKeys.getD posSafe 0 = k then pos else nse
  else 0

/-- `diag_slot[csr_rows[diag_positions]] = diag_positions` over `full(n, -1)`
(`/repo/feax/problem.py:391-394`). -/
def diagSlotsOf (n : ℕ) (csrRows csrCols : List ℕ) : List ℤ :=
  let diagPositions := (List.range csrRows.length).filter
    (fun p => csrRows.getD p 0 == csrCols.getD p 0)
  scatterSet (List.replicate n (-1)) (gather 0 csrRows diagPositions)
    (diagPositions.map Int.ofNat)

/-- `Problem._build_csr_assembly_structure` (`/repo/feax/problem.py:357-484`), Jacobian part.
`rows`/`cols` are `I_filtered`/`J_filtered`; `rowsAll`/`colsAll` are the unfiltered `I`/`J`.
Simplification: int32/int64 are unbounded naturals. -/
def buildCsrMaps (n : ℕ) (rows cols rowsAll colsAll : List ℕ) : CsrMaps :=
  let keys := coordKeys n rows cols
  let order := argsort keys
  let sortedKeys := gather 0 keys order
  let segIds := segIdsOf sortedKeys
  let nse := match segIds.getLast? with
    | none => 0
    | some s => s + 1
  let uniqueKeys := compress sortedKeys (isNew sortedKeys)
  let csrRows := uniqueKeys.map (· / n)
  let csrCols := uniqueKeys.map (· % n)
  let indptr := ptrOfRows n csrRows
  let slot := scatterSet (List.replicate rows.length 0) order segIds
  let keysAll := coordKeys n rowsAll colsAll
  let tKeys := coordKeys n csrCols csrRows
  let tOrder := argsort tKeys
  let tRows := gather 0 csrCols tOrder
  let tCols := gather 0 csrRows tOrder
  let tIndptr := ptrOfRows n tRows
  { nse := nse
    indptr := indptr
    indices := csrCols
    rowOfSlot := csrRows
    perm := order
    segIds := segIds
    slot := slot
    diagSlots := diagSlotsOf n csrRows csrCols
    tPerm := tOrder
    tIndptr := tIndptr
    tIndices := tCols
    structurallySymmetric := (csrCols == tCols) && (indptr == tIndptr)
    fullSlot := keysAll.map (fullSlotOf uniqueKeys nse) }

end Verif.Model
