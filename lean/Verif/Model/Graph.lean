import Verif.Model.Arr
import Verif.Model.Solution
import Mathlib.Algebra.Order.Field.Basic
import Mathlib.Algebra.BigOperators.Fin

/-!
# Lattice graphs (`/repo/feax/flat/graph.py`)

Points are functions from the coordinates; numbers are elements of an ordered field. Distances are compared squared:
`norm(d) <= radius` with a non-negative radius is `d · d <= radius²`.
-/

namespace Verif.Model

section
variable {K : Type} [Field K] [LinearOrder K] {dim : ℕ}

/-- `np.dot`. -/
def dotF (v w : Fin dim → K) : K := ∑ i, v i * w i

/-- The square of `_segment_distance` (`/repo/feax/flat/graph.py:49-69`). -/
def segmentDistSq (x p0 p1 : Fin dim → K) : K :=
  let v := fun i => p1 i - p0 i
  let w := fun i => x i - p0 i
  let vv := dotF v v
  let t := if 0 < vv then min (max (dotF w v / vv) 0) 1 else 0
  let r := fun i => x i - (p0 i + t * v i)
  dotF r r

/-- `nodes[i]` on a JAX array: an index beyond the end is clamped. -/
def nodeAt (nodes : List (Fin dim → K)) (i : ℕ) : Fin dim → K := nodes.getD (min i (nodes.length - 1)) fun _ => 0

/-- `universal_graph` (`/repo/feax/flat/graph.py:72-100`). -/
def universalGraph (x : Fin dim → K) (nodes : List (Fin dim → K)) (edges : List (ℕ × ℕ)) (radius : K) : Except PyErr K :=
  if radius < 0 then .error .valueError
  else
    match edges with
    | [] => .ok 0
    | _ =>
      .ok (if edges.any fun e => decide (segmentDistSq x (nodeAt nodes e.1) (nodeAt nodes e.2) ≤ radius * radius) then 1 else 0)

/-- `adj_mat.at[i, j].set(1.0)`: out of range is dropped. -/
def setEntry (a : List (List K)) (i j : ℕ) : List (List K) := a.modify i fun r => r.set j 1

/-- `edges2adjcentMat` (`/repo/feax/flat/graph.py:117-156`). -/
def edges2adj (edges : List (ℕ × ℕ)) (numNodes : Option ℕ) : List (List K) :=
  match edges with
  | [] => List.replicate (numNodes.getD 0) (List.replicate (numNodes.getD 0) 0)
  | _ =>
    let n := numNodes.getD (edges.foldl (fun a e => max a (max e.1 e.2)) 0 + 1)
    edges.foldl (fun a e => setEntry (setEntry a e.1 e.2) e.2 e.1) (List.replicate n (List.replicate n 0))

/-- `np.triu_indices(n, k=1)` (`/repo/feax/flat/graph.py:184`), row by row. -/
def triuPairs (n : ℕ) : List (ℕ × ℕ) :=
  (List.range n).flatMap fun i => (List.range' (i + 1) (n - (i + 1))).map fun j => (i, j)

/-- `adj_mat[i, j]` inside the array. -/
def adjEntry (a : List (List K)) (i j : ℕ) : K := (a.getD i []).getD j 0

/-- `adjcentMat2edges` (`/repo/feax/flat/graph.py:159-201`): `where` with a fixed size pads the positions with `-1`; the
rows gathered at `-1` (the last pair) are masked out again. `size` is the number of pairs. -/
def adj2edges (a : List (List K)) : List (ℕ × ℕ) :=
  let pairs := triuPairs a.length
  let hits := (List.range pairs.length).filter fun k =>
    decide (adjEntry a (pairs.getD k (0, 0)).1 (pairs.getD k (0, 0)).2 ≠ 0)
  let valid : List ℤ := hits.map Int.ofNat ++ List.replicate (pairs.length - hits.length) (-1)
  let rows := valid.map fun (k : ℤ) => pairs.getD (if k < 0 then ((pairs.length : ℤ) + k).toNat else k.toNat) (0, 0)
  compress rows (valid.map fun (k : ℤ) => decide (k ≠ -1))

/-- `universal_graph_from_adjmat` (`/repo/feax/flat/graph.py:204-249`). -/
def universalGraphAdj (x : Fin dim → K) (nodes : List (Fin dim → K)) (a : List (List K)) (radius : K) : Except PyErr K :=
  if radius < 0 then .error .valueError
  else
    let check := fun i j => decide (i < j) && decide (adjEntry a i j ≠ 0) &&
      decide (segmentDistSq x (nodeAt nodes i) (nodeAt nodes j) ≤ radius * radius)
    .ok (if (List.range a.length).any fun i => (List.range a.length).any (check i) then 1 else 0)

/-- `create_lattice_density_field_nodal` (`/repo/feax/flat/graph.py:304-338`), and the element version at the centroids
(`275-301`): solid where the indicator exceeds one half. -/
def latticeDensity (indicator : (Fin dim → K) → Except PyErr K) (solid void : K) (points : List (Fin dim → K)) :
    Except PyErr (List K) :=
  points.mapM fun x => do
    let v ← indicator x
    return if 1 / 2 < v then solid else void

end
end Verif.Model
