import Verif.Model.Orientation
import Mathlib.Analysis.SpecialFunctions.Trigonometric.DerivHyp
import Mathlib.Tactic.Linarith
import Mathlib.Tactic.Positivity
import Mathlib.Tactic.FieldSimp
import Mathlib.Tactic.NormNum

/-!
# C89: design variables to orientation tensors

The maps from box-bounded design variables to second-order orientation tensors.
-/

namespace Verif.Props

open Verif.Model

/-- `vᵀ a v`. -/
def quadForm {d : ℕ} (a : Arr2 ℝ d) (v : Fin d → ℝ) : ℝ := ∑ i, ∑ j, a i j * v i * v j

/-- A symmetric tensor without negative directions. -/
def PsdTensor {d : ℕ} (a : Arr2 ℝ d) : Prop := (∀ i j, a i j = a j i) ∧ ∀ v, 0 ≤ quadForm a v

theorem triangle_eq (z e : ℝ) : boxToTriangle z e
    = ((1 + z) * (3 - e) / 8 - z * (1 - z) / 2 / 1000000, (1 + e) * (3 - z) / 8 - e * (1 - e) / 2 / 1000000) := by
  simp only [boxToTriangle, triU, triV, serendipity8, List.zipWith_cons_cons, List.zipWith_nil_left, List.sum_cons,
    List.sum_nil, orientTol, Prod.mk.injEq]
  constructor <;> ring

private theorem first_pos {z e : ℝ} (hz : -1 ≤ z) (hz' : z ≤ 1) (he' : e ≤ 1) :
    0 < (1 + z) * (3 - e) / 8 - z * (1 - z) / 2 / 1000000 := by
  rcases le_or_gt z (-1 / 2) with h | h
  · nlinarith [mul_nonneg (by linarith : (0 : ℝ) ≤ 1 + z) (by linarith : (0 : ℝ) ≤ 3 - e)]
  · nlinarith [mul_nonneg (by linarith : (0 : ℝ) ≤ 1 + z) (by linarith : (0 : ℝ) ≤ 1 - e), sq_nonneg (z - 1 / 2)]

/-- **C89.** Design variables in `[-1, 1]²` give two positive diagonal entries whose sum exceeds one by at most `1e-6`. -/
theorem C89_triangle {x1 x2 : ℝ} (h1 : -1 ≤ x1) (h1' : x1 ≤ 1) (h2 : -1 ≤ x2) (h2' : x2 ≤ 1) :
    0 < (boxToTriangle x1 x2).1 ∧ 0 < (boxToTriangle x1 x2).2 ∧
      (boxToTriangle x1 x2).1 + (boxToTriangle x1 x2).2 ≤ 1 + 1 / 1000000 := by
  rw [triangle_eq]
  refine ⟨first_pos h1 h1' h2', first_pos h2 h2' h1', ?_⟩
  show (1 + x1) * (3 - x2) / 8 - x1 * (1 - x1) / 2 / 1000000 + ((1 + x2) * (3 - x1) / 8 - x2 * (1 - x2) / 2 / 1000000)
    ≤ 1 + 1 / 1000000
  nlinarith [mul_nonneg (by linarith : (0 : ℝ) ≤ 1 + x1) (by linarith : (0 : ℝ) ≤ 1 - x1),
    mul_nonneg (by linarith : (0 : ℝ) ≤ 1 + x2) (by linarith : (0 : ℝ) ≤ 1 - x2),
    mul_nonneg (by linarith : (0 : ℝ) ≤ 1 + x1) (by linarith : (0 : ℝ) ≤ 1 + x2),
    mul_nonneg (by linarith : (0 : ℝ) ≤ 1 - x1) (by linarith : (0 : ℝ) ≤ 1 - x2)]

example : (-1 : ℝ) ≤ 1 / 3 ∧ (1 / 3 : ℝ) ≤ 1 := by norm_num

/-- **C89.** The corners of the square go to the vertices of the triangle and to the middle of its long side, up to `1e-6`. -/
theorem C89_triangle_corners :
    boxToTriangle (1 : ℝ) (-1) = (1, 1 / 1000000) ∧ boxToTriangle (-1 : ℝ) 1 = (1 / 1000000, 1) ∧
    boxToTriangle (-1 : ℝ) (-1) = (1 / 1000000, 1 / 1000000) ∧ boxToTriangle (1 : ℝ) 1 = (1 / 2, 1 / 2) := by
  simp only [triangle_eq]
  norm_num

/-- **C89.** The bound `a11 + a22 ≤ 1` of the documentation is exceeded, by the tolerance built into the map. -/
theorem C89_trace_above_one :
    1 < (boxToTriangle (1 : ℝ) (-1)).1 + (boxToTriangle (1 : ℝ) (-1)).2 := by
  rw [triangle_eq]; norm_num

/-- **C89.** Swapping the two variables swaps the two entries. -/
theorem C89_triangle_mirror (x1 x2 : ℝ) :
    boxToTriangle x2 x1 = ((boxToTriangle x1 x2).2, (boxToTriangle x1 x2).1) := by
  simp only [triangle_eq]

/-- **C89.** The documentation allows arrays and promises results of the same shape; arrays whose length is neither 1 nor 8 are
refused, and the other two give a pair of scalars. -/
theorem C89_arrays_refused (x1 x2 : List ℝ) (h1 : x1.length ≠ 1) (h8 : x1.length ≠ 8) :
    boxToTriangleArray x1 x2 = .error .typeError := by
  have : sumBroadcast (triU ℝ) ((List.range 8).map fun a => (List.zipWith serendipity8 x1 x2).map fun n => n.getD a 0)
      x1.length = .error .typeError := by
    unfold sumBroadcast
    rw [if_neg (by simpa [triU] using h8), if_neg h1]
  unfold boxToTriangleArray
  dsimp only
  rw [this]
  rfl

example : ([0, 1 / 2] : List ℝ).length ≠ 1 ∧ ([0, 1 / 2] : List ℝ).length ≠ 8 := by decide

/-- **C89.** For the array `[-1]` of length one the result is not that of the scalar `-1`. -/
theorem C89_array_of_one_wrong :
    boxToTriangleArray ([-1] : List ℚ) [-1] = .ok (3 + 3 / 1000000, 3 + 3 / 1000000) ∧
    boxToTriangle (-1 : ℚ) (-1) = (1 / 1000000, 1 / 1000000) := by
  constructor
  · refine congrArg Except.ok (a₁ := ?_) ?_
    decide +kernel
  · decide +kernel

theorem tetrahedron_entry (x1 x2 x3 : ℝ) (i : Fin 3) :
    boxToTetrahedron x1 x2 x3 i = (List.zipWith (fun v n => v i * n) (tetVertices ℝ) (trilinearHex8 x1 x2 x3)).sum := rfl

/-- **C89.** Design variables in `[-1, 1]³` give three positive diagonal entries whose sum exceeds one by at most `2e-6`. -/
theorem C89_tetrahedron {x1 x2 x3 : ℝ} (h1 : -1 ≤ x1) (h1' : x1 ≤ 1) (h2 : -1 ≤ x2) (h2' : x2 ≤ 1) (h3 : -1 ≤ x3)
    (h3' : x3 ≤ 1) :
    (∀ i, 0 < boxToTetrahedron x1 x2 x3 i) ∧ ∑ i, boxToTetrahedron x1 x2 x3 i ≤ 1 + 2 / 1000000 := by
  obtain ⟨p1, hp1⟩ : ∃ p, p = 1 - x1 := ⟨_, rfl⟩
  obtain ⟨q1, hq1⟩ : ∃ p, p = 1 + x1 := ⟨_, rfl⟩
  obtain ⟨p2, hp2⟩ : ∃ p, p = 1 - x2 := ⟨_, rfl⟩
  obtain ⟨q2, hq2⟩ : ∃ p, p = 1 + x2 := ⟨_, rfl⟩
  obtain ⟨p3, hp3⟩ : ∃ p, p = 1 - x3 := ⟨_, rfl⟩
  obtain ⟨q3, hq3⟩ : ∃ p, p = 1 + x3 := ⟨_, rfl⟩
  have a1 : 0 ≤ p1 := by linarith
  have a2 : 0 ≤ q1 := by linarith
  have a3 : 0 ≤ p2 := by linarith
  have a4 : 0 ≤ q2 := by linarith
  have a5 : 0 ≤ p3 := by linarith
  have a6 : 0 ≤ q3 := by linarith
  have n1 := mul_nonneg (mul_nonneg a1 a3) a5
  have n2 := mul_nonneg (mul_nonneg a2 a3) a5
  have n3 := mul_nonneg (mul_nonneg a2 a4) a5
  have n4 := mul_nonneg (mul_nonneg a1 a4) a5
  have n5 := mul_nonneg (mul_nonneg a1 a3) a6
  have n6 := mul_nonneg (mul_nonneg a2 a3) a6
  have n7 := mul_nonneg (mul_nonneg a2 a4) a6
  have n8 := mul_nonneg (mul_nonneg a1 a4) a6
  have hs : p1 * p2 * p3 + q1 * p2 * p3 + q1 * q2 * p3 + p1 * q2 * p3 + p1 * p2 * q3 + q1 * p2 * q3 + q1 * q2 * q3
      + p1 * q2 * q3 = 8 := by rw [hp1, hq1, hp2, hq2, hp3, hq3]; ring
  have key : ∀ i, boxToTetrahedron x1 x2 x3 i = (List.zipWith (fun v n => v i * n) (tetVertices ℝ)
      [p1 * p2 * p3 / 8, q1 * p2 * p3 / 8, q1 * q2 * p3 / 8, p1 * q2 * p3 / 8, p1 * p2 * q3 / 8, q1 * p2 * q3 / 8,
        q1 * q2 * q3 / 8, p1 * q2 * q3 / 8]).sum := by
    intro i; rw [tetrahedron_entry, hp1, hq1, hp2, hq2, hp3, hq3]; rfl
  constructor
  · intro i
    rw [key]
    fin_cases i <;>
      simp [tetVertices, orientTol] <;> linarith
  · rw [Fin.sum_univ_three]
    simp only [key]
    simp [tetVertices, orientTol]
    linarith

/-- **C89.** The corners of the cube go to the vertices of the tetrahedron, the middles of three edges and the middle of a face,
up to `1e-6`. -/
theorem C89_tetrahedron_corners :
    let t : ℝ := 1 / 1000000
    boxToTetrahedron (-1 : ℝ) (-1) (-1) = ![t, t, t] ∧ boxToTetrahedron (1 : ℝ) (-1) (-1) = ![1, t, t] ∧
    boxToTetrahedron (-1 : ℝ) 1 (-1) = ![t, 1, t] ∧ boxToTetrahedron (-1 : ℝ) (-1) 1 = ![t, t, 1] ∧
    boxToTetrahedron (1 : ℝ) 1 (-1) = ![1 / 2, 1 / 2, t] ∧ boxToTetrahedron (1 : ℝ) (-1) 1 = ![1 / 2, t, 1 / 2] ∧
    boxToTetrahedron (-1 : ℝ) 1 1 = ![t, 1 / 2, 1 / 2] ∧ boxToTetrahedron (1 : ℝ) 1 1 = ![1 / 3, 1 / 3, 1 / 3] := by
  refine ⟨?_, ?_, ?_, ?_, ?_, ?_, ?_, ?_⟩ <;> (funext i; rw [tetrahedron_entry]; fin_cases i) <;>
    norm_num [tetVertices, trilinearHex8, orientTol]

private theorem tanh_strictMono : StrictMono Real.tanh := by
  intro x y h
  rw [Real.tanh_eq_sinh_div_cosh, Real.tanh_eq_sinh_div_cosh, div_lt_div_iff₀ (Real.cosh_pos x) (Real.cosh_pos y)]
  have := Real.sinh_pos_iff.2 (sub_pos.mpr h)
  rw [Real.sinh_sub] at this
  linarith

/-- **C89.** The smooth sign is odd, strictly increasing, and sends `-1`, `0` and `1` to themselves; so it maps `[-1, 1]` to
itself. -/
theorem C89_smooth_sign {beta : ℝ} (hb : 0 < beta) :
    StrictMono (fun x => smoothSgn x beta) ∧ (∀ x, smoothSgn (-x) beta = -smoothSgn x beta) ∧
    smoothSgn 1 beta = 1 ∧ smoothSgn 0 beta = 0 ∧ smoothSgn (-1) beta = -1 ∧
    ∀ x, -1 ≤ x → x ≤ 1 → -1 ≤ smoothSgn x beta ∧ smoothSgn x beta ≤ 1 := by
  have hpos : 0 < Real.tanh beta := by
    have := tanh_strictMono hb
    rwa [Real.tanh_zero] at this
  have hodd : ∀ x, smoothSgn (-x) beta = -smoothSgn x beta := by
    intro x; simp [smoothSgn, neg_div]
  have hmono : StrictMono (fun x => smoothSgn x beta) := by
    intro x y h
    exact div_lt_div_of_pos_right (tanh_strictMono (mul_lt_mul_of_pos_left h hb)) hpos
  have hone : smoothSgn 1 beta = 1 := by simp [smoothSgn, hpos.ne']
  have hneg : smoothSgn (-1) beta = -1 := by rw [hodd, hone]
  refine ⟨hmono, hodd, hone, by simp [smoothSgn], hneg, fun x h h' => ⟨?_, ?_⟩⟩
  · rw [← hneg]; exact hmono.monotone h
  · rw [← hone]; exact hmono.monotone h'

example : (0 : ℝ) < 10 := by norm_num

private theorem offdiag_sq {a b s : ℝ} (ha : 0 ≤ a) (hb : 0 ≤ b) (hs : -1 ≤ s) (hs' : s ≤ 1) :
    (Real.sqrt (max (a * b) 0) * s) ^ 2 ≤ a * b := by
  rw [mul_pow, max_eq_left (mul_nonneg ha hb), Real.sq_sqrt (mul_nonneg ha hb)]
  have : s ^ 2 ≤ 1 := by nlinarith
  nlinarith [mul_nonneg ha hb]

private theorem psd_two {a b c : ℝ} (ha : 0 < a) (h : c ^ 2 ≤ a * b) (x y : ℝ) :
    0 ≤ a * x * x + c * x * y + (c * y * x + b * y * y) := by
  have : 0 ≤ a * (a * x * x + c * x * y + (c * y * x + b * y * y)) := by
    nlinarith [sq_nonneg (a * x + c * y), mul_nonneg (sub_nonneg.mpr h) (sq_nonneg y)]
  exact nonneg_of_mul_nonneg_right this ha

/-- **C89.** In two dimensions the tensor built from design variables in the box is admissible: symmetric, without negative
directions, with trace at most `1 + 1e-6` and the returned diagonal; its off-diagonal entry has the sign of `x3`, and at
`x3 = ±1` the tensor has rank one. -/
theorem C89_tensor_2d {x1 x2 x3 beta : ℝ} (h1 : -1 ≤ x1) (h1' : x1 ≤ 1) (h2 : -1 ≤ x2) (h2' : x2 ≤ 1) (h3 : -1 ≤ x3)
    (h3' : x3 ≤ 1) (hb : 0 < beta) :
    let r := orientationTensor2d x1 x2 x3 beta
    PsdTensor r.1 ∧ r.1 0 0 = r.2.1 ∧ r.1 1 1 = r.2.2 ∧ (r.2.1, r.2.2) = boxToTriangle x1 x2 ∧
    r.1 0 0 + r.1 1 1 ≤ 1 + 1 / 1000000 ∧ (0 < r.1 0 1 ↔ 0 < x3) ∧
    (x3 = 1 ∨ x3 = -1 → r.1 0 1 ^ 2 = r.1 0 0 * r.1 1 1) := by
  obtain ⟨ha, hb', hsum⟩ := C89_triangle h1 h1' h2 h2'
  obtain ⟨hmono, -, hone, hzero, hneg, hrange⟩ := C89_smooth_sign hb
  obtain ⟨hs, hs'⟩ := hrange x3 h3 h3'
  have hoff := offdiag_sq ha.le hb'.le hs hs'
  have hroot : 0 < Real.sqrt (max ((boxToTriangle x1 x2).1 * (boxToTriangle x1 x2).2) 0) := by
    rw [max_eq_left (mul_pos ha hb').le]; exact Real.sqrt_pos.mpr (mul_pos ha hb')
  intro r
  refine ⟨⟨?_, ?_⟩, rfl, rfl, rfl, hsum, ?_, ?_⟩
  · intro i j
    fin_cases i <;> fin_cases j <;> rfl
  · intro v
    simp only [quadForm, Fin.sum_univ_two]
    exact psd_two ha hoff (v 0) (v 1)
  · show 0 < Real.sqrt (max ((boxToTriangle x1 x2).1 * (boxToTriangle x1 x2).2) 0) * smoothSgn x3 beta ↔ 0 < x3
    rw [mul_pos_iff_of_pos_left hroot]
    have := hmono.lt_iff_lt (a := 0) (b := x3)
    simp only [hzero] at this
    exact this
  · intro h
    show (Real.sqrt (max ((boxToTriangle x1 x2).1 * (boxToTriangle x1 x2).2) 0) * smoothSgn x3 beta) ^ 2 =
      (boxToTriangle x1 x2).1 * (boxToTriangle x1 x2).2
    rw [mul_pow, max_eq_left (mul_pos ha hb').le, Real.sq_sqrt (mul_pos ha hb').le]
    rcases h with rfl | rfl
    · rw [hone]; ring
    · rw [hneg]; ring

/-- **C89, part.** In three dimensions the tensor is symmetric with positive diagonal, trace at most `1 + 2e-6` and all two-by-two
principal minors nonnegative. Missing: it may have a negative direction (`C89_tensor_3d_not_admissible`). -/
theorem C89_tensor_3d_partial {x1 x2 x3 x12 x13 x23 beta : ℝ} (h1 : -1 ≤ x1) (h1' : x1 ≤ 1) (h2 : -1 ≤ x2) (h2' : x2 ≤ 1)
    (h3 : -1 ≤ x3) (h3' : x3 ≤ 1) (h12 : -1 ≤ x12) (h12' : x12 ≤ 1) (h13 : -1 ≤ x13) (h13' : x13 ≤ 1)
    (h23 : -1 ≤ x23) (h23' : x23 ≤ 1) (hb : 0 < beta) :
    let r := orientationTensor3d x1 x2 x3 x12 x13 x23 beta
    (∀ i j, r.1 i j = r.1 j i) ∧ (∀ i, 0 < r.1 i i) ∧ (∀ i, r.1 i i = boxToTetrahedron x1 x2 x3 i) ∧
    r.2 = (r.1 0 0, r.1 1 1, r.1 2 2) ∧ ∑ i, r.1 i i ≤ 1 + 2 / 1000000 ∧
    (∀ i j, r.1 i j ^ 2 ≤ r.1 i i * r.1 j j) := by
  obtain ⟨hpos, hsum⟩ := C89_tetrahedron h1 h1' h2 h2' h3 h3'
  obtain ⟨-, -, -, -, -, hrange⟩ := C89_smooth_sign hb
  have o12 := offdiag_sq (hpos 0).le (hpos 1).le (hrange x12 h12 h12').1 (hrange x12 h12 h12').2
  have o13 := offdiag_sq (hpos 0).le (hpos 2).le (hrange x13 h13 h13').1 (hrange x13 h13 h13').2
  have o23 := offdiag_sq (hpos 1).le (hpos 2).le (hrange x23 h23 h23').1 (hrange x23 h23 h23').2
  intro r
  have hdiag : ∀ i, r.1 i i = boxToTetrahedron x1 x2 x3 i := by
    intro i; fin_cases i <;> rfl
  refine ⟨?_, fun i => by rw [hdiag]; exact hpos i, hdiag, rfl, by simpa only [hdiag] using hsum, ?_⟩
  · intro i j
    fin_cases i <;> fin_cases j <;> rfl
  · intro i j
    have sq : ∀ i, r.1 i i ^ 2 ≤ r.1 i i * r.1 i i := fun i => le_of_eq (sq _)
    fin_cases i <;> fin_cases j
    · exact sq 0
    · exact o12
    · exact o13
    · exact o12.trans (le_of_eq (mul_comm _ _))
    · exact sq 1
    · exact o23
    · exact o13.trans (le_of_eq (mul_comm _ _))
    · exact o23.trans (le_of_eq (mul_comm _ _))
    · exact sq 2

/-- **C89.** Three-dimensional tensors built from variables in the box need not be admissible: at `x1 = x2 = x3 = 1`,
`x12 = x13 = 1`, `x23 = -1` the direction `(1, -1, -1)` is negative. -/
theorem C89_tensor_3d_not_admissible {beta : ℝ} (hb : 0 < beta) :
    quadForm (orientationTensor3d 1 1 1 1 1 (-1) beta).1 ![1, -1, -1] = -1 := by
  obtain ⟨-, -, hone, -, hneg, -⟩ := C89_smooth_sign hb
  have hv : ∀ i, boxToTetrahedron (1 : ℝ) 1 1 i = 1 / 3 := by
    intro i
    rw [C89_tetrahedron_corners.2.2.2.2.2.2.2]
    fin_cases i <;> rfl
  have hr : Real.sqrt (max ((1 : ℝ) / 3 * (1 / 3)) 0) = 1 / 3 := by
    rw [max_eq_left (by norm_num), Real.sqrt_mul_self (by norm_num)]
  simp only [quadForm, orientationTensor3d, hv, hr, hone, hneg, Fin.sum_univ_three]
  simp
  norm_num

/-- With `x23 = 1` the same direction is not negative. -/
example {beta : ℝ} (hb : 0 < beta) : 0 ≤ quadForm (orientationTensor3d 1 1 1 1 1 1 beta).1 ![1, -1, -1] := by
  obtain ⟨-, -, hone, -, hneg, -⟩ := C89_smooth_sign hb
  have hv : ∀ i, boxToTetrahedron (1 : ℝ) 1 1 i = 1 / 3 := by
    intro i
    rw [C89_tetrahedron_corners.2.2.2.2.2.2.2]
    fin_cases i <;> rfl
  have hr : Real.sqrt (max ((1 : ℝ) / 3 * (1 / 3)) 0) = 1 / 3 := by
    rw [max_eq_left (by norm_num), Real.sqrt_mul_self (by norm_num)]
  simp only [quadForm, orientationTensor3d, hv, hr, hone, Fin.sum_univ_three]
  simp

/-- What `eigh` promises: ascending eigenvalues and orthonormal eigenvectors in the columns of `v`. -/
structure IsEigh {d : ℕ} (a : Arr2 ℝ d) (w : Fin d → ℝ) (v : Arr2 ℝ d) : Prop where
  ascending : Monotone w
  eigen : ∀ k i, ∑ j, a i j * v j k = w k * v i k
  ortho : ∀ k l, ∑ i, v i k * v i l = if k = l then 1 else 0

/-- **C89.** For fibres all along the unit vector `p` the principal direction is `p` or `-p`, scaled or not. -/
theorem C89_principal_direction {d : ℕ} (p : Fin (d + 1) → ℝ) (hp : ∑ i, p i ^ 2 = 1) (w : Fin (d + 1) → ℝ)
    (v : Arr2 ℝ (d + 1)) (h : IsEigh (fun i j => p i * p j) w v) (scale : Bool) :
    principalDirection w v scale = p ∨ principalDirection w v scale = fun i => -p i := by
  have hvv : (Matrix.of v).transpose * Matrix.of v = 1 := by
    ext k l
    simp only [Matrix.mul_apply, Matrix.transpose_apply, Matrix.of_apply, Matrix.one_apply]
    exact h.ortho k l
  have hvv' : Matrix.of v * (Matrix.of v).transpose = 1 := mul_eq_one_comm.mp hvv
  have hcomp : ∀ i j, ∑ k, v i k * v j k = if i = j then 1 else 0 := by
    intro i j
    have := congrFun (congrFun hvv' i) j
    simpa only [Matrix.mul_apply, Matrix.transpose_apply, Matrix.of_apply, Matrix.one_apply] using this
  have hdot : ∀ k i, p i * (∑ j, p j * v j k) = w k * v i k := by
    intro k i
    rw [← h.eigen k i, Finset.mul_sum]
    exact Finset.sum_congr rfl fun j _ => by ring
  have hw : ∀ k, (∑ j, p j * v j k) ^ 2 = w k := by
    intro k
    have h1 : ∑ i, v i k * (p i * (∑ j, p j * v j k)) = ∑ i, v i k * (w k * v i k) :=
      Finset.sum_congr rfl fun i _ => by rw [hdot]
    have h2 : ∑ i, v i k * (w k * v i k) = w k := by
      have : ∀ i, v i k * (w k * v i k) = w k * (v i k * v i k) := fun i => by ring
      simp only [this]
      rw [← Finset.mul_sum, h.ortho k k, if_pos rfl, mul_one]
    rw [h2] at h1
    rw [← h1, sq, Finset.sum_mul]
    exact Finset.sum_congr rfl fun i _ => by ring
  have hw2 : ∀ k, (∑ j, p j * v j k) = w k * (∑ j, p j * v j k) := by
    intro k
    have h1 : ∑ i, p i * (p i * (∑ j, p j * v j k)) = ∑ i, p i * (w k * v i k) :=
      Finset.sum_congr rfl fun i _ => by rw [hdot]
    have h2 : ∑ i, p i * (p i * (∑ j, p j * v j k)) = ∑ j, p j * v j k := by
      have : ∀ i, p i * (p i * (∑ j, p j * v j k)) = p i ^ 2 * (∑ j, p j * v j k) := fun i => by ring
      simp only [this]
      rw [← Finset.sum_mul, hp, one_mul]
    have h3 : ∑ i, p i * (w k * v i k) = w k * (∑ j, p j * v j k) := by
      rw [Finset.mul_sum]
      exact Finset.sum_congr rfl fun i _ => by ring
    rw [h2, h3] at h1
    exact h1
  have hsum : ∑ k, w k = 1 := by
    have : ∀ k, w k = ∑ i, ∑ j, p i * p j * (v i k * v j k) := by
      intro k
      rw [← hw k, sq, Finset.sum_mul_sum]
      exact Finset.sum_congr rfl fun i _ => Finset.sum_congr rfl fun j _ => by ring
    rw [Finset.sum_congr rfl fun k _ => this k, Finset.sum_comm]
    rw [Finset.sum_congr rfl fun i _ => Finset.sum_comm]
    have h4 : ∀ i j, ∑ k, p i * p j * (v i k * v j k) = if i = j then p i ^ 2 else 0 := by
      intro i j
      rw [← Finset.mul_sum, hcomp]
      by_cases hij : i = j
      · subst hij; simp [sq]
      · simp [hij]
    simp only [h4, Finset.sum_ite_eq, Finset.mem_univ, if_true]
    exact hp
  have hlast : w (Fin.last d) ≠ 0 := by
    intro h0
    have hz : ∀ k, w k = 0 := fun k =>
      le_antisymm (h0 ▸ h.ascending (Fin.le_last k)) (by rw [← hw k]; exact sq_nonneg _)
    simp [hz] at hsum
  have hc : (∑ j, p j * v j (Fin.last d)) ≠ 0 := by
    intro h0
    apply hlast
    rw [← hw, h0]
    ring
  have hone : w (Fin.last d) = 1 := by
    have := hw2 (Fin.last d)
    exact (mul_right_cancel₀ hc ((one_mul _).trans this)).symm
  have hc1 : (∑ j, p j * v j (Fin.last d)) = 1 ∨ (∑ j, p j * v j (Fin.last d)) = -1 := by
    have := hw (Fin.last d)
    rw [hone] at this
    exact sq_eq_one_iff.mp this
  have hv : ∀ i, v i (Fin.last d) = p i * (∑ j, p j * v j (Fin.last d)) := by
    intro i
    rw [hdot, hone, one_mul]
  have hdir : ∀ i, principalDirection w v scale i = v i (Fin.last d) := by
    intro i
    unfold principalDirection
    split
    · rw [hone, mul_one]
    · rfl
  rcases hc1 with h1 | h1
  · left
    funext i
    rw [hdir, hv, h1, mul_one]
  · right
    funext i
    rw [hdir, hv, h1]
    ring

/-- A case: the tensor `diag(0, 1)` with its eigenvectors. -/
example : IsEigh (d := 2) (fun i j => (![0, 1] : Fin 2 → ℝ) i * (![0, 1] : Fin 2 → ℝ) j) ![0, 1]
    ![![1, 0], ![0, 1]] := by
  refine ⟨?_, ?_, ?_⟩
  · intro i j hij
    fin_cases i <;> fin_cases j <;> simp_all
  · intro k i; fin_cases k <;> fin_cases i <;> simp
  · intro k l; fin_cases k <;> fin_cases l <;> simp

end Verif.Props
