import Verif.Model.Csr
import Verif.Model.Solution

/-!
# `feax.asd`: merging sparsity patterns
-/

namespace Verif.Model

/-- A pattern argument as stored: shape and entries `(row, col, value ≠ 0)` in storage order. For asdex patterns,
`CSRMatrix` and `BCOO` the values are `ones(…, bool)`; for scipy matrices `astype(bool)` of the stored values (stored
zeros stay stored, as `False`); for dense arrays only nonzero entries are stored
(`/repo/feax/asd.py:54-77`). -/
structure StoredPattern where
  nr : ℕ
  nc : ℕ
  entries : List (ℕ × ℕ × Bool)

/-- A canonical scipy CSR of booleans. -/
structure BoolCsr where
  indptr : List ℕ
  indices : List ℕ
  vals : List Bool
  nr : ℕ
  nc : ℕ

/-- Distinct keys in increasing order: what `sum_duplicates` and `sort_indices` leave. -/
def sortUnique (keys : List ℕ) : List ℕ :=
  let s := gather 0 keys (argsort keys)
  compress s (isNew s)

/-- `_to_scipy_pattern` (`/repo/feax/asd.py:54-80`): `tocsr`, `sum_duplicates` (boolean sum is "or"),
`sort_indices`. -/
def toScipyPattern (p : StoredPattern) : BoolCsr :=
  let keys := sortUnique (p.entries.map fun e => e.1 * p.nc + e.2.1)
  { indptr := ptrOfRows p.nr (keys.map (· / p.nc))
    indices := keys.map (· % p.nc)
    vals := keys.map fun k => p.entries.any fun e => (e.1 * p.nc + e.2.1 == k) && e.2.2
    nr := p.nr
    nc := p.nc }

/-- `_slot_keys` (`/repo/feax/asd.py:90-94`). -/
def BoolCsr.slotKeys (A : BoolCsr) : List ℕ := coordKeys A.nc (repeatByPtr A.indptr) A.indices

/-- `_csr_slots` (`/repo/feax/asd.py:97-104`): `keys[slots]` raises IndexError past the end, the assertion raises
otherwise. -/
def csrSlots (M : BoolCsr) (rows cols : List ℕ) : Except PyErr (List ℕ) :=
  let keys := M.slotKeys
  let q := coordKeys M.nc rows cols
  let slots := q.map (searchsorted keys)
  if q.length = 0 then .ok slots
  else if slots.any (fun s => decide (keys.length ≤ s)) then .error .indexError
  else if (slots.zip q).all (fun sq => keys.getD sq.1 0 == sq.2) then .ok slots
  else .error .assertionError

/-- `(A + B).tocsr()` canonicalised (`/repo/feax/asd.py:161-163`): scipy's sparse addition stores only the entries
whose result is nonzero. -/
def addPatterns (A B : BoolCsr) : BoolCsr :=
  let keys := sortUnique (compress A.slotKeys A.vals ++ compress B.slotKeys B.vals)
  { indptr := ptrOfRows A.nr (keys.map (· / A.nc))
    indices := keys.map (· % A.nc)
    vals := keys.map fun _ => true
    nr := A.nr
    nc := A.nc }

/-- The dictionary returned by `merge_csr_patterns`. -/
structure MergeMaps where
  indptr : List ℕ
  indices : List ℕ
  nnz : ℕ
  nr : ℕ
  nc : ℕ
  slotsA : List ℕ
  slotsB : List ℕ
  tPerm : List ℕ
  tIndptr : List ℕ
  tIndices : List ℕ

/-- `merge_csr_patterns` (`/repo/feax/asd.py:150-187`). `S.T.tocsr()` with sorted indices orders the slots by
(column, row). -/
def mergeCsrPatterns (pa pb : StoredPattern) : Except PyErr MergeMaps := do
  let A := toScipyPattern pa
  let B := toScipyPattern pb
  if (A.nr, A.nc) ≠ (B.nr, B.nc) then .error .assertionError
  else
    let M := addPatterns A B
    let slotsA ← csrSlots M (repeatByPtr A.indptr) A.indices
    let slotsB ← csrSlots M (repeatByPtr B.indptr) B.indices
    let rows := repeatByPtr M.indptr
    let tPerm := argsort (coordKeys M.nr M.indices rows)
    .ok {
      indptr := M.indptr
      indices := M.indices
      nnz := M.indices.length
      nr := M.nr
      nc := M.nc
      slotsA := slotsA
      slotsB := slotsB
      tPerm := tPerm
      tIndptr := ptrOfRows M.nc (gather 0 M.indices tPerm)
      tIndices := gather 0 rows tPerm }

/-- `arr.at[idx].add(vals)` (`/repo/feax/solvers/newton.py:454-456`). -/
def scatterAdd {R : Type*} [AddCommMonoid R] (arr : List R) (idx : List ℕ) (vals : List R) : List R :=
  (idx.zip vals).foldl (fun acc p => acc.set p.1 (acc.getD p.1 0 + p.2)) arr

/-- `J_merged_param` (`/repo/feax/solvers/newton.py:452-457`), from the two value arrays. Simplification: the skipped
empty addition is an addition of nothing. -/
def mergedMatrix {R : Type*} [AddCommMonoid R] (m : MergeMaps) (dataA dataB : List R) : CSRMatrix R :=
  { data := scatterAdd (scatterAdd (List.replicate m.nnz 0) m.slotsA dataA) m.slotsB dataB
    indptr := m.indptr
    indices := m.indices
    numRows := m.nr
    numCols := m.nc }

end Verif.Model
