import Verif.Model.Arr
import Verif.Model.Solution
import Mathlib.Algebra.Order.Field.Basic

/-!
# Field transfer and adaptive remeshing (`/repo/feax/gene/adaptive.py`)

The `cKDTree` queries and Gmsh are outside the model: their answers are arguments, and what is known about them is a
hypothesis of the theorems. Numbers are elements of an ordered field.
-/

namespace Verif.Model

/-- A point or vector of three coordinates. -/
abbrev P3 (K : Type*) := K × K × K

/-- A 3×3 matrix, by rows. -/
abbrev M3 (K : Type*) := P3 K × P3 K × P3 K

section
variable {K : Type*} [Field K]

/-- `a - b` on coordinate arrays. -/
def sub3 (a b : P3 K) : P3 K := (a.1 - b.1, a.2.1 - b.2.1, a.2.2 - b.2.2)

/-- The inner product. -/
def dot3 (a b : P3 K) : K := a.1 * b.1 + a.2.1 * b.2.1 + a.2.2 * b.2.2

/-- Transposition. -/
def transpose3 (m : M3 K) : M3 K :=
  ((m.1.1, m.2.1.1, m.2.2.1), (m.1.2.1, m.2.1.2.1, m.2.2.2.1), (m.1.2.2, m.2.1.2.2, m.2.2.2.2))

/-- Matrix times vector. -/
def mulVec3 (m : M3 K) (v : P3 K) : P3 K := (dot3 m.1 v, dot3 m.2.1 v, dot3 m.2.2 v)

/-- The determinant. -/
def det3x3 (m : M3 K) : K :=
  m.1.1 * (m.2.1.2.1 * m.2.2.2.2 - m.2.1.2.2 * m.2.2.2.1) - m.1.2.1 * (m.2.1.1 * m.2.2.2.2 - m.2.1.2.2 * m.2.2.1)
    + m.1.2.2 * (m.2.1.1 * m.2.2.2.1 - m.2.1.2.1 * m.2.2.1)

/-- `onp.linalg.inv` of one matrix (`/repo/feax/gene/adaptive.py:78`, `173`), by cofactors. Simplification: the
`LinAlgError` of a singular matrix is `RuntimeError`. -/
def inv3 (m : M3 K) [DecidableEq K] : Except PyErr (M3 K) :=
  let d := det3x3 m
  if d = 0 then .error .runtimeError
  else
    .ok (((m.2.1.2.1 * m.2.2.2.2 - m.2.1.2.2 * m.2.2.2.1) / d, (m.1.2.2 * m.2.2.2.1 - m.1.2.1 * m.2.2.2.2) / d,
          (m.1.2.1 * m.2.1.2.2 - m.1.2.2 * m.2.1.2.1) / d),
         ((m.2.1.2.2 * m.2.2.1 - m.2.1.1 * m.2.2.2.2) / d, (m.1.1 * m.2.2.2.2 - m.1.2.2 * m.2.2.1) / d,
          (m.1.2.2 * m.2.1.1 - m.1.1 * m.2.1.2.2) / d),
         ((m.2.1.1 * m.2.2.2.1 - m.2.1.2.1 * m.2.2.1) / d, (m.1.2.1 * m.2.2.1 - m.1.1 * m.2.2.2.1) / d,
          (m.1.1 * m.2.1.2.1 - m.1.2.1 * m.2.1.1) / d))

/-- A TET4 mesh. -/
structure TetMesh (K : Type*) where
  points : List (P3 K)
  cells : List (List ℕ)

namespace TetMesh

/-- `points[cells[e, a]]`. -/
def vertex (m : TetMesh K) (e a : ℕ) : P3 K := m.points.getD ((m.cells.getD e []).getD a 0) (0, 0, 0)

/-- The edges from vertex 0, as rows (`/repo/feax/gene/adaptive.py:170-172`). -/
def edges (m : TetMesh K) (e : ℕ) : M3 K :=
  (sub3 (m.vertex e 1) (m.vertex e 0), sub3 (m.vertex e 2) (m.vertex e 0), sub3 (m.vertex e 3) (m.vertex e 0))

/-- `centroids` (`/repo/feax/gene/adaptive.py:81`). -/
def centroid (m : TetMesh K) (e : ℕ) : P3 K :=
  let s := fun (f : P3 K → K) => (f (m.vertex e 0) + f (m.vertex e 1) + f (m.vertex e 2) + f (m.vertex e 3)) / 4
  (s (·.1), s (·.2.1), s (·.2.2))

end TetMesh

section
variable [LinearOrder K]

/-! ### `interpolate_field` -/

/-- `T`: the edges as columns, and `inv_T` (`/repo/feax/gene/adaptive.py:72-78`), for all elements at once: one
degenerate element raises. -/
def inverses (m : TetMesh K) : Except PyErr (List (M3 K)) :=
  (List.range m.cells.length).mapM fun e => inv3 (transpose3 (m.edges e))

/-- One candidate element at one query point (`/repo/feax/gene/adaptive.py:99-117`): the interpolated value if the point
is inside up to the tolerance. -/
def candidateValue (m : TetMesh K) (inv : List (M3 K)) (tol : K) (values : List K) (p : P3 K) (e : ℕ) : Option K :=
  let lam := mulVec3 (inv.getD e ((0, 0, 0), (0, 0, 0), (0, 0, 0))) (sub3 p (m.vertex e 0))
  let lam0 := 1 - (lam.1 + lam.2.1 + lam.2.2)
  let val := fun a => values.getD ((m.cells.getD e []).getD a 0) 0
  if -tol ≤ lam0 ∧ -tol ≤ lam.1 ∧ -tol ≤ lam.2.1 ∧ -tol ≤ lam.2.2 then
    some (lam0 * val 0 + lam.1 * val 1 + lam.2.1 * val 2 + lam.2.2 * val 3)
  else none

/-- `onp.clip` (`/repo/feax/gene/adaptive.py:126-127`). -/
def clipTo (c : Option (K × K)) (x : K) : K :=
  match c with
  | none => x
  | some (lo, hi) => min (max x lo) hi

/-- `interpolate_field` (`/repo/feax/gene/adaptive.py:29-129`). `candidates p` is the row of `cand_all` for the query
point, `nearest p` the answer of the node tree. The batches over candidates are, point by point, the first candidate
that contains the point. Simplification: the values contain no NaN. -/
def interpolateField (tol : K) (candidates : P3 K → List ℕ) (nearest : P3 K → ℕ) (values : List K) (m : TetMesh K)
    (new : List (P3 K)) (clip : Option (K × K)) : Except PyErr (List K) := do
  if m.cells.any fun c => c.length != 4 then throw .valueError
  let inv ← inverses m
  return new.map fun p =>
    clipTo clip (((candidates p).findSome? (candidateValue m inv tol values p)).getD (values.getD (nearest p) 0))

/-! ### `gradient_refinement` -/

/-- `drho_ref` (`/repo/feax/gene/adaptive.py:177-178`). -/
def fieldDiffs (m : TetMesh K) (rho : List K) (e : ℕ) : P3 K :=
  let val := fun a => rho.getD ((m.cells.getD e []).getD a 0) 0
  (val 1 - val 0, val 2 - val 0, val 3 - val 0)

/-- `grad_rho` of one element (`/repo/feax/gene/adaptive.py:170-181`). -/
def elementGradient (m : TetMesh K) (rho : List K) (e : ℕ) : Except PyErr (P3 K) := do
  let inv ← inv3 (m.edges e)
  return mulVec3 (transpose3 inv) (fieldDiffs m rho e)

/-- The average over the elements around each node (`/repo/feax/gene/adaptive.py:184-191`): `onp.add.at` of values and
ones, column by column. -/
def nodeAverage (numNodes : ℕ) (cells : List (List ℕ)) (mag : List K) : List K :=
  let ids := (List.range 4).flatMap fun a => cells.map fun c => c.getD a 0
  let vals := (List.range 4).flatMap fun _ => mag
  let sum := segmentSum vals ids numNodes
  let count := segmentSum (ids.map fun _ => (1 : K)) ids numNodes
  List.zipWith (fun s c => s / max c 1) sum count

/-- `gradient_refinement` (`/repo/feax/gene/adaptive.py:136-198`); `norm` is `onp.linalg.norm` of one row, `small` is
`1e-12`. -/
def gradientRefinement (norm : P3 K → K) (small : K) (rho : List K) (m : TetMesh K) : Except PyErr (List K) := do
  if m.cells.any fun c => c.length != 4 then throw .valueError
  let grads ← (List.range m.cells.length).mapM (elementGradient m rho)
  let avg := nodeAverage m.points.length m.cells (grads.map norm)
  match avg with
  | [] => throw .valueError
  | a :: as =>
    let gmax := as.foldl max a
    return if small < gmax then avg.map (· / gmax) else avg

/-! ### The size callback and the retuning loop -/

/-- `_make_size_callback` and the callback it returns (`/repo/feax/gene/adaptive.py:205-230`). `nearest p` is the index
of the old node nearest to `p`; `small` is `1e-8`. An empty field raises in `max`. -/
def sizeAt (small hMin hMax : K) (nearest : P3 K → ℕ) (field : Option (List K)) (p : P3 K) : Except PyErr K :=
  match field with
  | none => .ok hMax
  | some f =>
    match f.map fun x => min (max x 0) 1 with
    | [] => .error .valueError
    | a :: as =>
      if as.foldl max a - as.foldl min a < small then .ok hMax
      else .ok (hMax - (a :: as).getD (nearest p) 0 * (hMax - hMin))

/-- One pass of the retuning loop of `adaptive_box_mesh` (`/repo/feax/gene/adaptive.py:472-479`). `generate` meshes with
the given sizes, `count` is `points.shape[0]`, `cbrt` the cube root; the bounds `0.7` and `1.3` are arguments. -/
def retune {Mesh : Type*} (generate : K → K → Mesh) (count : Mesh → K) (cbrt : K → K) (lo hi target : K) :
    ℕ → K × K × Mesh → K × K × Mesh
  | 0, s => s
  | n + 1, (a, b, mesh) =>
    let r := count mesh / target
    if lo < r ∧ r < hi then (a, b, mesh)
    else
      let a' := a * cbrt r
      let b' := b * cbrt r
      retune generate count cbrt lo hi target n (a', b', generate a' b')

/-- `adaptive_box_mesh` after the unpacking of the size (`/repo/feax/gene/adaptive.py:468-483`). Simplification: a zero
`target_nodes` divides by zero in the field. -/
def adaptiveBox {Mesh : Type*} (generate : K → K → Mesh) (count : Mesh → K) (cbrt : K → K) (lo hi hMin hMax : K)
    (target : Option K) (retries : ℕ) : K × K × Mesh :=
  let first := (hMin, hMax, generate hMin hMax)
  match target with
  | none => first
  | some t => retune generate count cbrt lo hi t retries first

end
end
end Verif.Model
