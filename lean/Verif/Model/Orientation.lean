import Verif.Model.Stiffness
import Verif.Model.Solution
import Mathlib.LinearAlgebra.Matrix.Determinant.Basic

/-!
# Fibre-orientation tensors (`/repo/feax/mechanics/orientation.py`)

Exact arithmetic replaces floating point; `principal_direction` takes the result of `eigh` as an argument.
-/

namespace Verif.Model

section field
variable {K : Type} [Field K] {d : ℕ}

/-- `_TRI_TOL` and `_TET_TOL` (`/repo/feax/mechanics/orientation.py:79`, `139`). -/
def orientTol (K : Type) [Field K] : K := 1 / 1000000

/-- `_U` (`/repo/feax/mechanics/orientation.py:80`). -/
def triU (K : Type) [Field K] : List K :=
  [orientTol K, 1 / 2, 1, 3 / 4, 1 / 2, 1 / 4, orientTol K, orientTol K]

/-- `_V` (`/repo/feax/mechanics/orientation.py:81`). -/
def triV (K : Type) [Field K] : List K :=
  [orientTol K, orientTol K, orientTol K, 1 / 4, 1 / 2, 3 / 4, 1, 1 / 2]

/-- `_serendipity_8` (`/repo/feax/mechanics/orientation.py:84-94`). -/
def serendipity8 (z e : K) : List K :=
  [-(1 - z) * (1 - e) * (1 + z + e) / 4,
   (1 - z ^ 2) * (1 - e) / 2,
   -(1 + z) * (1 - e) * (1 - z + e) / 4,
   (1 + z) * (1 - e ^ 2) / 2,
   -(1 + z) * (1 + e) * (1 - z - e) / 4,
   (1 - z ^ 2) * (1 + e) / 2,
   -(1 - z) * (1 + e) * (1 + z - e) / 4,
   (1 - z) * (1 - e ^ 2) / 2]

/-- `box_to_triangle` of two scalars (`/repo/feax/mechanics/orientation.py:97-117`). -/
def boxToTriangle (x1 x2 : K) : K × K :=
  let n := serendipity8 x1 x2
  ((List.zipWith (· * ·) (triU K) n).sum, (List.zipWith (· * ·) (triV K) n).sum)

/-- `np.sum(_U * N)` when `N` has shape `(8, n)` (`/repo/feax/mechanics/orientation.py:117`): the weights are broadcast along
the last axis, so that `n` must be 1 or 8, and the sum runs over both axes. -/
def sumBroadcast (w : List K) (rows : List (List K)) (n : ℕ) : Except PyErr K :=
  if n = w.length then .ok ((rows.map fun row => (List.zipWith (· * ·) w row).sum).sum)
  else if n = 1 then .ok ((rows.map fun row => (w.map fun u => u * row.getD 0 0).sum).sum)
  else .error .typeError

/-- `box_to_triangle` of two arrays of the same length (`/repo/feax/mechanics/orientation.py:97-117`); the result is a pair of
scalars. -/
def boxToTriangleArray (x1 x2 : List K) : Except PyErr (K × K) := do
  let rows := (List.range 8).map fun a => (List.zipWith serendipity8 x1 x2).map fun n => n.getD a 0
  let a11 ← sumBroadcast (triU K) rows x1.length
  let a22 ← sumBroadcast (triV K) rows x1.length
  return (a11, a22)

/-- `_TET_VERTICES` (`/repo/feax/mechanics/orientation.py:140-149`). -/
def tetVertices (K : Type) [Field K] : List (Fin 3 → K) :=
  let t := orientTol K
  [![t, t, t], ![1, t, t], ![1 / 2, 1 / 2, t], ![t, 1, t], ![t, t, 1], ![1 / 2, t, 1 / 2], ![1 / 3, 1 / 3, 1 / 3],
   ![t, 1 / 2, 1 / 2]]

/-- `_trilinear_hex_8` (`/repo/feax/mechanics/orientation.py:152-166`). -/
def trilinearHex8 (xi eta zeta : K) : List K :=
  [(1 - xi) * (1 - eta) * (1 - zeta) / 8,
   (1 + xi) * (1 - eta) * (1 - zeta) / 8,
   (1 + xi) * (1 + eta) * (1 - zeta) / 8,
   (1 - xi) * (1 + eta) * (1 - zeta) / 8,
   (1 - xi) * (1 - eta) * (1 + zeta) / 8,
   (1 + xi) * (1 - eta) * (1 + zeta) / 8,
   (1 + xi) * (1 + eta) * (1 + zeta) / 8,
   (1 - xi) * (1 + eta) * (1 + zeta) / 8]

/-- `box_to_tetrahedron` of three scalars (`/repo/feax/mechanics/orientation.py:169-197`). -/
def boxToTetrahedron (x1 x2 x3 : K) : Fin 3 → K := fun i =>
  (List.zipWith (fun v n => v i * n) (tetVertices K) (trilinearHex8 x1 x2 x3)).sum

/-- `quadratic_closure` (`/repo/feax/mechanics/orientation.py:385-396`). -/
def quadraticClosure (a2 : Arr2 K d) : Arr4 K d := fun i j k l => a2 i j * a2 k l

/-- `iso` (`/repo/feax/mechanics/orientation.py:441-445`). -/
def isoPart (K : Type) [Field K] (d : ℕ) : Arr4 K d := fun i j k l =>
  eye K d i j * eye K d k l + eye K d i k * eye K d j l + eye K d i l * eye K d j k

/-- `aniso` (`/repo/feax/mechanics/orientation.py:446-453`). -/
def anisoPart (a2 : Arr2 K d) : Arr4 K d := fun i j k l =>
  a2 i j * eye K d k l + a2 k l * eye K d i j + a2 i k * eye K d j l + a2 i l * eye K d j k
    + a2 j k * eye K d i l + a2 j l * eye K d i k

/-- `_LINEAR_COEFFS` (`/repo/feax/mechanics/orientation.py:404-407`). -/
def linearCoeffs (K : Type) [Field K] (d : ℕ) : Option (K × K) :=
  if d = 2 then some (-1 / 24, 1 / 6) else if d = 3 then some (-1 / 35, 1 / 7) else none

/-- `linear_closure` (`/repo/feax/mechanics/orientation.py:416-454`). -/
def linearClosure (a2 : Arr2 K d) : Except PyErr (Arr4 K d) :=
  match linearCoeffs K d with
  | none => .error .valueError
  | some (c1, c2) => .ok fun i j k l => c1 * isoPart K d i j k l + c2 * anisoPart a2 i j k l

/-- `_HYBRID_DET_SCALE` (`/repo/feax/mechanics/orientation.py:413`). -/
def hybridScale (K : Type) [Field K] (d : ℕ) : Option K :=
  if d = 2 then some 4 else if d = 3 then some 27 else none

/-- `f` of `hybrid_closure` (`/repo/feax/mechanics/orientation.py:612`). -/
def hybridFactor (scale : K) (a2 : Arr2 K d) : K := 1 - scale * Matrix.det (Matrix.of a2)

/-- `hybrid_closure` (`/repo/feax/mechanics/orientation.py:590-613`). -/
def hybridClosure (a2 : Arr2 K d) : Except PyErr (Arr4 K d) :=
  match hybridScale K d with
  | none => .error .valueError
  | some s => do
    let f := hybridFactor s a2
    let lin ← linearClosure a2
    return fun i j k l => (1 - f) * lin i j k l + f * quadraticClosure a2 i j k l

/-- `build_a4_2d` (`/repo/feax/mechanics/orientation.py:457-587`). -/
def buildA4 (a2 : Arr2 K 2) (y1 y2 eps : K) : Arr4 K 2 :=
  let tau := a2 0 0 + a2 1 1
  let tauSafe := tau + eps
  let c2 := (a2 0 0 - a2 1 1) / tauSafe
  let s2 := 2 * a2 0 1 / tauSafe
  let nu1SqRe := c2 * c2 - s2 * s2
  let nu1SqIm := 2 * c2 * s2
  let absNu1Sq := c2 * c2 + s2 * s2
  let c4 := nu1SqRe + y1 * (1 - absNu1Sq)
  let s4 := nu1SqIm + y2 * (1 - absNu1Sq)
  let a1111 := tau * ((3 + 4 * c2 + c4) / 8)
  let a2222 := tau * ((3 - 4 * c2 + c4) / 8)
  let a1122 := tau * ((1 - c4) / 8)
  let a1112 := tau * ((2 * s2 + s4) / 8)
  let a1222 := tau * ((2 * s2 - s4) / 8)
  ![![![![a1111, a1112], ![a1112, a1122]], ![![a1112, a1122], ![a1122, a1222]]],
    ![![![a1112, a1122], ![a1122, a1222]], ![![a1122, a1222], ![a1222, a2222]]]]

/-- The sum returned by the two builders of averaged stiffnesses (`/repo/feax/mechanics/orientation.py:697-713`, `807-824`);
the in-plane one has no `B4` term, that is `B4 = 0`. -/
def averagedForm (B1 B2 B3 B4 B5 : K) (a2 : Arr2 K d) (a4 : Arr4 K d) : Arr4 K d := fun i j k l =>
  B1 * a4 i j k l + B2 * (a2 i j * eye K d k l + a2 k l * eye K d i j)
    + B3 * (a2 i k * eye K d j l + a2 i l * eye K d j k + a2 j k * eye K d i l + a2 j l * eye K d i k)
    + B4 * (eye K d i j * eye K d k l)
    + B5 * (eye K d i k * eye K d j l + eye K d i l * eye K d j k)

/-- `orientation_averaged_stiffness` (`/repo/feax/mechanics/orientation.py:620-713`). -/
def averagedStiffness (a2 : Arr2 K 2) (a4 : Arr4 K 2) (E1 E2 G12 nu12 : K) : Arr4 K 2 :=
  let nu21 := nu12 * E2 / E1
  let m := 1 / (1 - nu12 * nu21)
  let Q11 := m * E1
  let Q22 := m * E2
  let Q12 := m * nu21 * E1
  let Q66 := G12
  averagedForm (Q11 + Q22 - 2 * Q12 - 4 * Q66) Q12 (Q66 - Q22 / 2) 0 (Q22 / 2) a2 a4

/-- `orientation_averaged_stiffness_3d` (`/repo/feax/mechanics/orientation.py:716-824`). -/
def averagedStiffness3d (a2 : Arr2 K 3) (a4 : Arr4 K 3) (E1 E2 G12 nu12 nu23 : K) : Arr4 K 3 :=
  let nu21 := nu12 * E2 / E1
  let m := 1 / ((1 + nu23) * (1 - nu23 - 2 * nu12 * nu21))
  let C1111 := E1 * (1 - nu23 ^ 2) * m
  let C1122 := E1 * nu21 * (1 + nu23) * m
  let C2222 := E2 * (1 - nu12 * nu21) * m
  let C2233 := E2 * (nu23 + nu12 * nu21) * m
  let C1212 := G12
  averagedForm (C1111 + C2222 - 2 * C1122 - 4 * C1212) (C1122 - C2233) (C1212 + (C2233 - C2222) / 2) C2233
    ((C2222 - C2233) / 2) a2 a4

/-- `thermal_expansion_from_orientation` (`/repo/feax/mechanics/shell.py:302-324`). -/
def thermalFromOrientation (a2 : Arr2 K 2) (aFibre aTransverse : K) : Arr2 K 2 := fun i j =>
  aTransverse * eye K 2 i j + (aFibre - aTransverse) * a2 i j

/-- `principal_direction` for one tensor of size `d + 1`, given the pair `(w, v)` that `eigh` returns
(`/repo/feax/mechanics/orientation.py:370-377`). -/
def principalDirection (w : Fin (d + 1) → K) (v : Arr2 K (d + 1)) (scale : Bool) : Fin (d + 1) → K := fun i =>
  if scale then v i (Fin.last d) * w (Fin.last d) else v i (Fin.last d)

end field

noncomputable section

/-- `smooth_sgn` (`/repo/feax/mechanics/orientation.py:205-218`). -/
def smoothSgn (x beta : ℝ) : ℝ := Real.tanh (beta * x) / Real.tanh beta

/-- `orientation_tensor_2d` (`/repo/feax/mechanics/orientation.py:225-261`); the diagonal is returned as well. -/
def orientationTensor2d (x1 x2 x3 beta : ℝ) : Arr2 ℝ 2 × ℝ × ℝ :=
  let a11 := (boxToTriangle x1 x2).1
  let a22 := (boxToTriangle x1 x2).2
  let a12 := Real.sqrt (max (a11 * a22) 0) * smoothSgn x3 beta
  (![![a11, a12], ![a12, a22]], a11, a22)

/-- `orientation_tensor_3d` (`/repo/feax/mechanics/orientation.py:264-310`); the diagonal is returned as well. -/
def orientationTensor3d (x1 x2 x3 x12 x13 x23 beta : ℝ) : Arr2 ℝ 3 × ℝ × ℝ × ℝ :=
  let a := boxToTetrahedron x1 x2 x3
  let a12 := Real.sqrt (max (a 0 * a 1) 0) * smoothSgn x12 beta
  let a13 := Real.sqrt (max (a 0 * a 2) 0) * smoothSgn x13 beta
  let a23 := Real.sqrt (max (a 1 * a 2) 0) * smoothSgn x23 beta
  (![![a 0, a12, a13], ![a12, a 1, a23], ![a13, a23, a 2]], a 0, a 1, a 2)

end

end Verif.Model
