import Mathlib.Data.List.Sort
import Mathlib.Algebra.BigOperators.Group.List.Basic

/-!
# Array primitives (numpy / jax.numpy)

The array operations the modelled code is written in.  Arrays are `List`s; index arrays are
`List ℕ`.  Each definition says which numpy / JAX call it stands for and where feax uses it.
-/

namespace Verif.Model

/-- `arr[idx]` for an integer index array (numpy/JAX gather), e.g. `/repo/feax/problem.py:366`,
`/repo/feax/assembler.py:1159`, `/repo/feax/csr.py:89`.
Simplification: an out-of-range index yields `d`; the theorems about code that gathers prove the
indices in range. -/
def gather {α : Type*} (d : α) (arr : List α) (idx : List ℕ) : List α :=
  idx.map (fun i => arr.getD i d)

/-- `np.argsort(keys, kind='stable')` (`/repo/feax/problem.py:365,423,463,470,482`) and
`jnp.argsort` (stable by default, `/repo/feax/DCboundary.py:483`): positions ordered by key, ties by
position. Simplification: sorting algorithm is insertion sort (same result, it is stable). -/
def argsort (keys : List ℕ) : List ℕ :=
  (List.range keys.length).insertionSort (fun i j => keys.getD i 0 ≤ keys.getD j 0)

/-- `np.cumsum` on natural numbers (`/repo/feax/problem.py:373,382`). -/
def cumsumFrom (acc : ℕ) : List ℕ → List ℕ
  | [] => []
  | x :: xs => (acc + x) :: cumsumFrom (acc + x) xs

/-- `np.cumsum(xs)`. -/
def cumsum (xs : List ℕ) : List ℕ := cumsumFrom 0 xs

/-- `is_new[0] = True; is_new[1:] = sorted_keys[1:] != sorted_keys[:-1]`
(`/repo/feax/problem.py:370-372`): marks the first entry of each run of equal keys. -/
def isNew : List ℕ → List Bool
  | [] => []
  | x :: xs => true :: List.zipWith (fun a b => decide (a ≠ b)) xs (x :: xs).dropLast

/-- Boolean-mask indexing `xs[mask]` (`/repo/feax/problem.py:377`). -/
def compress {α : Type*} (xs : List α) (mask : List Bool) : List α :=
  ((xs.zip mask).filter (·.2)).map (·.1)

/-- Sum of the values whose id is `s`: one output cell of `segment_sum`. -/
def segSumAt {R : Type*} [AddCommMonoid R] (ps : List (ℕ × R)) (s : ℕ) : R :=
  ((ps.filter (fun p => p.1 == s)).map (·.2)).sum

/-- `jax.ops.segment_sum(vals, ids, num_segments=num)` (`/repo/feax/assembler.py:1099,1160,1305`,
`/repo/feax/csr.py:89`): ids outside `0..num-1` are dropped. -/
def segmentSum {R : Type*} [AddCommMonoid R] (vals : List R) (ids : List ℕ) (num : ℕ) : List R :=
  (List.range num).map (segSumAt (ids.zip vals))

/-- `out = np.empty(n); out[idx] = vals` for a permutation `idx` (`/repo/feax/problem.py:385-386`),
and in general `arr.at[idx].set(vals)` applied left to right (out-of-range dropped, as JAX scatter
does). -/
def scatterSet {α : Type*} (arr : List α) (idx : List ℕ) (vals : List α) : List α :=
  (idx.zip vals).foldl (fun acc p => acc.set p.1 p.2) arr

/-- `np.add.at(arr, idx, 1)` (`/repo/feax/problem.py:381`), left to right. -/
def addAtOne (arr : List ℕ) (idx : List ℕ) : List ℕ :=
  idx.foldl (fun acc i => acc.set i (acc.getD i 0 + 1)) arr

/-- `np.searchsorted(sorted, k)` (left side), `/repo/feax/problem.py:405`: number of entries `< k`
before the insertion point. Simplification: linear scan instead of bisection (same on sorted
input). -/
def searchsorted (xs : List ℕ) (k : ℕ) : ℕ := (xs.takeWhile (· < k)).length

/-- `np.repeat(np.arange(n), np.diff(indptr), total_repeat_length=nse)` (`/repo/feax/csr.py:74-78`).
JAX pads with the last value / truncates to `nse`; on a well-formed `indptr` the total is exactly
`nse` and neither happens (proved in `Verif.Lemmas.CsrBuild`). Simplification: no pad/truncate. -/
def repeatByPtr (indptr : List ℕ) : List ℕ :=
  ((List.range (indptr.length - 1)).map
    (fun r => List.replicate (indptr.getD (r + 1) 0 - indptr.getD r 0) r)).flatten

end Verif.Model
