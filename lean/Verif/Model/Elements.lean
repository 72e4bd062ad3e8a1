import Verif.Model.Solution
import Mathlib.Algebra.DualNumber

/-!
# `feax.basis`: element tables, shape functions, node ordering

Basix is not part of the repository. Its Lagrange (`P`) elements of degree 1 and 2 on the interval, triangle, quadrilateral,
tetrahedron and hexahedron are modelled from its documentation: reference vertices, numbering of vertices and edges, the
nodal basis of the polynomial space, and for its serendipity elements (`HEX20`, `QUAD8`) the basis of vertex values and edge
averages that its documentation defines. Its quadrature rules are not modelled;
the theorems hold for arbitrary points.
-/

namespace Verif.Model

/-- The supported element types (`/repo/feax/basis.py:65-120`). -/
inductive EleType
  | HEX8 | HEX20 | TET4 | TET10 | QUAD4 | QUAD8 | QUAD9 | TRI3 | TRI6
  deriving DecidableEq, Repr

/-- The string comparison of `get_elements` (`/repo/feax/basis.py:65-124`). -/
def eleTypeOf (s : String) : Except PyErr EleType :=
  if s = "HEX8" then .ok .HEX8 else if s = "HEX20" then .ok .HEX20 else if s = "TET4" then .ok .TET4
  else if s = "TET10" then .ok .TET10 else if s = "QUAD4" then .ok .QUAD4 else if s = "QUAD8" then .ok .QUAD8
  else if s = "QUAD9" then .ok .QUAD9 else if s = "TRI3" then .ok .TRI3 else if s = "TRI6" then .ok .TRI6
  else .error .notImplemented

namespace EleType

/-- `re_order` (`/repo/feax/basis.py:66-116`). -/
def reOrder : EleType → List ℕ
  | HEX8 => [0, 1, 3, 2, 4, 5, 7, 6]
  | HEX20 => [0, 1, 3, 2, 4, 5, 7, 6, 8, 11, 13, 9, 16, 18, 19, 17, 10, 12, 15, 14]
  | TET4 => [0, 1, 2, 3]
  | TET10 => [0, 1, 2, 3, 9, 6, 8, 7, 5, 4]
  | QUAD4 => [0, 1, 3, 2]
  | QUAD8 => [0, 1, 3, 2, 4, 6, 7, 5]
  | QUAD9 => [0, 1, 3, 2, 4, 6, 7, 5, 8]
  | TRI3 => [0, 1, 2]
  | TRI6 => [0, 1, 2, 5, 3, 4]

/-- Default quadrature order (`/repo/feax/basis.py:69-119`). -/
def gaussOrder : EleType → ℕ
  | HEX8 | HEX20 | TET10 | QUAD4 | QUAD8 | TRI6 => 2
  | TET4 | TRI3 => 0
  | QUAD9 => 4

/-- Polynomial degree (`/repo/feax/basis.py:70-120`). -/
def degree : EleType → ℕ
  | HEX8 | TET4 | QUAD4 | TRI3 => 1
  | HEX20 | TET10 | QUAD8 | QUAD9 | TRI6 => 2

/-- The types of the Basix family `P` (`/repo/feax/basis.py:64`, `73`, `98`). -/
def isLagrange : EleType → Bool
  | HEX20 | QUAD8 => false
  | _ => true

/-- Dimension of the reference cell (`basix_ele`, `/repo/feax/basis.py:67-117`). -/
def dim : EleType → ℕ
  | HEX8 | HEX20 | TET4 | TET10 => 3
  | _ => 2

end EleType

section basix
variable {R : Type*} [CommRing R]

/-- Degree-2 nodal basis on `[0, 1]` at `0`, `1`, `1/2` (Basix, used by `/repo/feax/basis.py:192`). -/
def line2 (x : R) : R × R × R := ((1 - x) * (1 - 2 * x), x * (2 * x - 1), 4 * x * (1 - x))

/-- Quadratic serendipity functions of the quadrilateral: vertices, then edges (Basix, used by `/repo/feax/basis.py:192`). Edge
functions are `2h` times the bubble of their edge; vertex functions are the bilinear ones less half of the two edge functions next
to them. With `h = 2` the degree of freedom of an edge is the value at its midpoint, with `h = 3` the average over the edge. -/
def serendipityQuad (h x y : R) : List R :=
  let bx := x * (1 - x)
  let by' := y * (1 - y)
  [(1 - x) * (1 - y) - h * (bx * (1 - y) + by' * (1 - x)), x * (1 - y) - h * (bx * (1 - y) + by' * x),
    (1 - x) * y - h * (bx * y + by' * (1 - x)), x * y - h * (bx * y + by' * x),
    2 * h * (bx * (1 - y)), 2 * h * (by' * (1 - x)), 2 * h * (by' * x), 2 * h * (bx * y)]

/-- Quadratic serendipity functions of the hexahedron: vertices, then edges (Basix, used by `/repo/feax/basis.py:192`); `h` as in
`serendipityQuad`. -/
def serendipityHex (h x y z : R) : List R :=
  let bx := x * (1 - x)
  let by' := y * (1 - y)
  let bz := z * (1 - z)
  let vertex := fun a b c : R => a * b * c - h * (bx * b * c + a * by' * c + a * b * bz)
  [vertex (1 - x) (1 - y) (1 - z), vertex x (1 - y) (1 - z), vertex (1 - x) y (1 - z), vertex x y (1 - z),
    vertex (1 - x) (1 - y) z, vertex x (1 - y) z, vertex (1 - x) y z, vertex x y z,
    2 * h * (bx * (1 - y) * (1 - z)), 2 * h * ((1 - x) * by' * (1 - z)), 2 * h * ((1 - x) * (1 - y) * bz),
    2 * h * (x * by' * (1 - z)), 2 * h * (x * (1 - y) * bz), 2 * h * (bx * y * (1 - z)), 2 * h * ((1 - x) * y * bz),
    2 * h * (x * y * bz), 2 * h * (bx * (1 - y) * z), 2 * h * ((1 - x) * by' * z), 2 * h * (x * by' * z), 2 * h * (bx * y * z)]

/-- The Basix basis functions at the point `(x, y, z)`, in the numbering of Basix: vertices, then edges, then the interior
(`basix.create_element`, `/repo/feax/basis.py:192`). For the serendipity family the degrees of freedom Basix attaches to edges are
integral moments: the basis is the one of vertex values and edge averages. In two dimensions `z` is unused. -/
def basixValues (e : EleType) (x y z : R) : List R :=
  match e with
  | .TRI3 => [1 - x - y, x, y]
  | .QUAD4 => [(1 - x) * (1 - y), x * (1 - y), (1 - x) * y, x * y]
  | .TET4 => [1 - x - y - z, x, y, z]
  | .HEX8 => [(1 - x) * (1 - y) * (1 - z), x * (1 - y) * (1 - z), (1 - x) * y * (1 - z), x * y * (1 - z),
      (1 - x) * (1 - y) * z, x * (1 - y) * z, (1 - x) * y * z, x * y * z]
  | .TRI6 =>
      let l := 1 - x - y
      [l * (2 * l - 1), x * (2 * x - 1), y * (2 * y - 1), 4 * x * y, 4 * l * y, 4 * l * x]
  | .TET10 =>
      let l := 1 - x - y - z
      [l * (2 * l - 1), x * (2 * x - 1), y * (2 * y - 1), z * (2 * z - 1), 4 * y * z, 4 * x * z, 4 * x * y, 4 * l * z,
        4 * l * y, 4 * l * x]
  | .QUAD9 =>
      let a := line2 x
      let b := line2 y
      [a.1 * b.1, a.2.1 * b.1, a.1 * b.2.1, a.2.1 * b.2.1, a.2.2 * b.1, a.1 * b.2.2, a.2.1 * b.2.2, a.2.2 * b.2.1,
        a.2.2 * b.2.2]
  | .QUAD8 => serendipityQuad 3 x y
  | .HEX20 => serendipityHex 3 x y z

/-- `element.tabulate(…)[:, :, re_order, :]`, values (`/repo/feax/basis.py:191-195`). -/
def shapeValuesAt (e : EleType) (x y z : R) : List R :=
  let b := basixValues e x y z
  e.reOrder.map fun i => b.getD i 0

/-- First derivatives with respect to coordinate `j` (`/repo/feax/basis.py:194-196`): Basix differentiates polynomials
exactly, modelled by the `ε`-part at `point + ε eⱼ`. -/
def shapeGradAt (e : EleType) (x y z : R) (j : ℕ) : List R :=
  (shapeValuesAt e (TrivSqZeroExt.inl x + if j = 0 then DualNumber.eps else 0)
    (TrivSqZeroExt.inl y + if j = 1 then DualNumber.eps else 0)
    (TrivSqZeroExt.inl z + if j = 2 then DualNumber.eps else 0) : List (DualNumber R)).map TrivSqZeroExt.snd

/-- Second derivative tabulated by Basix: with respect to coordinate `i`, of the derivative with respect to coordinate `j`
(`element.tabulate(2, …)`, `/repo/feax/basis.py:223`). -/
def basixHessAt (e : EleType) (x y z : R) (i j : ℕ) : List R :=
  (shapeGradAt e (TrivSqZeroExt.inl x + if i = 0 then DualNumber.eps else 0)
    (TrivSqZeroExt.inl y + if i = 1 then DualNumber.eps else 0)
    (TrivSqZeroExt.inl z + if i = 2 then DualNumber.eps else 0) j : List (DualNumber R)).map TrivSqZeroExt.snd

/-- `get_shape_hessians_ref` (`/repo/feax/basis.py:200-241`): the entries with `i ≤ j` are tabulated and mirrored. -/
def shapeHessAt (e : EleType) (x y z : R) (i j : ℕ) : List R := basixHessAt e x y z (min i j) (max i j)

end basix

/-- `reorder_inds` on one index (`/repo/feax/basis.py:148-150`): the positions at which `re_order` equals it. -/
def positionsOf (reOrder : List ℕ) (ind : ℕ) : List ℕ :=
  (List.range reOrder.length).filter fun p => reOrder.getD p 0 = ind

/-- `reorder_inds` on the rows of an array (`/repo/feax/basis.py:129-152`): the final reshape needs one position per index
(`ValueError`). -/
def reorderInds (inds : List (List ℕ)) (reOrder : List ℕ) : Except PyErr (List (List ℕ)) :=
  if inds.all (fun row => row.all fun i => (positionsOf reOrder i).length == 1) then
    .ok (inds.map fun row => row.map fun i => (positionsOf reOrder i).headD 0)
  else .error .valueError

/-- Basix: facets of the reference cell as lists of vertex numbers (`sub_entity_connectivity(…)[dim - 1]`, `/repo/feax/basis.py:293`). -/
def basixFacets : EleType → List (List ℕ)
  | .TRI3 | .TRI6 => [[1, 2], [0, 2], [0, 1]]
  | .QUAD4 | .QUAD8 | .QUAD9 => [[0, 1], [0, 2], [1, 3], [2, 3]]
  | .TET4 | .TET10 => [[1, 2, 3], [0, 2, 3], [0, 1, 3], [0, 1, 2]]
  | .HEX8 | .HEX20 => [[0, 1, 2, 3], [0, 1, 4, 5], [0, 2, 4, 6], [1, 3, 5, 7], [2, 3, 6, 7], [4, 5, 6, 7]]

/-- Basix: vertices of the reference cell (`basix.geometry`, `/repo/feax/basis.py:291`). -/
def basixVertices : EleType → List (List ℕ)
  | .TRI3 | .TRI6 => [[0, 0], [1, 0], [0, 1]]
  | .QUAD4 | .QUAD8 | .QUAD9 => [[0, 0], [1, 0], [0, 1], [1, 1]]
  | .TET4 | .TET10 => [[0, 0, 0], [1, 0, 0], [0, 1, 0], [0, 0, 1]]
  | .HEX8 | .HEX20 => [[0, 0, 0], [1, 0, 0], [0, 1, 0], [1, 1, 0], [0, 0, 1], [1, 0, 1], [0, 1, 1], [1, 1, 1]]

/-- `face_inds` (`/repo/feax/basis.py:293-318`). -/
def faceInds (e : EleType) : Except PyErr (List (List ℕ)) := reorderInds (basixFacets e) e.reOrder

/-- Degree-1 basis on the facet cell, in the numbering of Basix (`/repo/feax/basis.py:288-290`); `s`, `t` facet
coordinates. -/
def facetValues {R : Type*} [CommRing R] (e : EleType) (s t : R) : List R :=
  match e with
  | .TRI3 | .TRI6 | .QUAD4 | .QUAD8 | .QUAD9 => [1 - s, s]
  | .TET4 | .TET10 => [1 - s - t, s, t]
  | .HEX8 | .HEX20 => [(1 - s) * (1 - t), s * (1 - t), (1 - s) * t, s * t]

/-- `mapped_point` (`/repo/feax/basis.py:301-305`), coordinate `k` of the point of facet `f` with facet coordinates
`(s, t)`. -/
def mappedPoint {R : Type*} [CommRing R] (e : EleType) (f : ℕ) (s t : R) (k : ℕ) : R :=
  (List.zipWith (fun v c => ((((basixVertices e).getD v []).getD k 0 : ℕ) : R) * c) ((basixFacets e).getD f []) (facetValues e s t)).sum

end Verif.Model
