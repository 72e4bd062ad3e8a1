import Verif.Model.Generators
import Mathlib.Tactic.LinearCombination
import Mathlib.Tactic.FieldSimp
import Mathlib.Tactic.FinCases
import Mathlib.Tactic.Positivity
import Mathlib.Data.Fintype.Basic

/-!
# Properties of the cylinder and box generators (C140)
-/

namespace Verif.Props
open Verif.Model

/-- The cylinder with base centre at the origin, the given radius and height, along the unit vector `a`. -/
def cylinderAlong (radius height : ℝ) (a : Fin 3 → ℝ) : Set (Fin 3 → ℝ) :=
  {y | 0 ≤ gdot3 y a ∧ gdot3 y a ≤ height ∧ gdot3 y y - gdot3 y a ^ 2 ≤ radius ^ 2}

theorem rotate3_dot (k : Fin 3 → ℝ) (hk : gdot3 k k = 1) (t : ℝ) (x y : Fin 3 → ℝ) :
    gdot3 (rotate3 k t x) (rotate3 k t y) = gdot3 x y := by
  have hcs := Real.sin_sq_add_cos_sq t
  simp only [rotate3, gdot3, gcross3, Matrix.cons_val_zero, Matrix.cons_val_one, Matrix.cons_val] at *
  linear_combination ((x 0 * y 0 + x 1 * y 1 + x 2 * y 2)
    - (k 0 * x 0 + k 1 * x 1 + k 2 * x 2) * (k 0 * y 0 + k 1 * y 1 + k 2 * y 2)) * hcs
    + (Real.sin t ^ 2 * (x 0 * y 0 + x 1 * y 1 + x 2 * y 2) + (1 - Real.cos t) ^ 2 *
      ((k 0 * x 0 + k 1 * x 1 + k 2 * x 2) * (k 0 * y 0 + k 1 * y 1 + k 2 * y 2))) * hk

theorem rotate3_inv (k : Fin 3 → ℝ) (hk : gdot3 k k = 1) (t : ℝ) (x : Fin 3 → ℝ) :
    rotate3 k t (rotate3 k (-t) x) = x := by
  have hcs := Real.sin_sq_add_cos_sq t
  funext i
  simp only [gdot3] at hk
  fin_cases i <;>
    simp only [rotate3, gdot3, gcross3, Real.cos_neg, Real.sin_neg, Matrix.cons_val_zero, Matrix.cons_val_one,
      Matrix.cons_val, Fin.zero_eta, Fin.mk_one, Fin.reduceFinMk]
  · linear_combination (x 0 - k 0 * (k 0 * x 0 + k 1 * x 1 + k 2 * x 2)) * hcs
      + (Real.sin t ^ 2 * x 0 + (1 - Real.cos t) ^ 2 * k 0 * (k 0 * x 0 + k 1 * x 1 + k 2 * x 2)) * hk
  · linear_combination (x 1 - k 1 * (k 0 * x 0 + k 1 * x 1 + k 2 * x 2)) * hcs
      + (Real.sin t ^ 2 * x 1 + (1 - Real.cos t) ^ 2 * k 1 * (k 0 * x 0 + k 1 * x 1 + k 2 * x 2)) * hk
  · linear_combination (x 2 - k 2 * (k 0 * x 0 + k 1 * x 1 + k 2 * x 2)) * hcs
      + (Real.sin t ^ 2 * x 2 + (1 - Real.cos t) ^ 2 * k 2 * (k 0 * x 0 + k 1 * x 1 + k 2 * x 2)) * hk

theorem gdot3_self_nonneg (x : Fin 3 → ℝ) : 0 ≤ gdot3 x x := by
  unfold gdot3; nlinarith [sq_nonneg (x 0), sq_nonneg (x 1), sq_nonneg (x 2)]

theorem norm3_sq (x : Fin 3 → ℝ) : norm3 x ^ 2 = gdot3 x x := Real.sq_sqrt (gdot3_self_nonneg x)

theorem gdot3_unit (x : Fin 3 → ℝ) (h : norm3 x ≠ 0) : gdot3 (fun i => x i / norm3 x) (fun i => x i / norm3 x) = 1 := by
  have := norm3_sq x
  unfold gdot3 at *
  field_simp
  linarith

/-- The rotation the code computes takes the upright direction to the wanted one. -/
theorem rotate3_ez (a : Fin 3 → ℝ) (ha : gdot3 a a = 1) (hr : norm3 (gcross3 ez a) ≠ 0) :
    rotate3 (fun i => gcross3 ez a i / norm3 (gcross3 ez a)) (Real.arccos (gdot3 ez a)) ez = a := by
  have hs := norm3_sq (gcross3 ez a)
  have ha' : a 0 ^ 2 + a 1 ^ 2 + a 2 ^ 2 = 1 := by unfold gdot3 at ha; linarith
  have hs' : norm3 (gcross3 ez a) ^ 2 = 1 - a 2 ^ 2 := by
    rw [hs]
    simp [gdot3, gcross3, ez]
    linarith
  have hd : gdot3 ez a = a 2 := by simp [gdot3, ez]
  have hn : 0 ≤ norm3 (gcross3 ez a) := Real.sqrt_nonneg _
  have hsin : Real.sin (Real.arccos (gdot3 ez a)) = norm3 (gcross3 ez a) := by
    rw [Real.sin_arccos, hd, ← hs', Real.sqrt_sq hn]
  have hcos : Real.cos (Real.arccos (gdot3 ez a)) = a 2 := by
    rw [hd]
    apply Real.cos_arccos <;> nlinarith [sq_nonneg (a 0), sq_nonneg (a 1), sq_nonneg (a 2)]
  generalize norm3 (gcross3 ez a) = s at *
  unfold rotate3
  rw [hsin, hcos]
  funext i
  fin_cases i <;> simp [gdot3, gcross3, ez] <;> field_simp

/-- The tests of the code decide nothing else: a unit axis that is neither close to the upright direction nor (nearly)
opposite to it is rotated. -/
theorem cylinderTurn_of_tilted (axis : Fin 3 → ℝ) (a : Fin 3 → ℝ) (ha : a = fun i => axis i / norm3 axis)
    (hne : ¬ closeToEz a) (htilt : (1 / 10 ^ 10) ^ 2 < a 0 ^ 2 + a 1 ^ 2) :
    norm3 (gcross3 ez a) ≠ 0 ∧ ∀ x, cylinderTurn axis x =
      rotate3 (fun i => gcross3 ez a i / norm3 (gcross3 ez a)) (Real.arccos (gdot3 ez a)) x := by
  have hs : norm3 (gcross3 ez a) ^ 2 = a 0 ^ 2 + a 1 ^ 2 := by
    rw [norm3_sq]; simp [gdot3, gcross3, ez]; ring
  have hpos : norm3 (gcross3 ez a) > 1 / 10 ^ 10 := by
    apply lt_of_pow_lt_pow_left₀ 2 (Real.sqrt_nonneg _)
    exact hs ▸ htilt
  refine ⟨by have : (0 : ℝ) < 1 / 10 ^ 10 := by positivity
             exact (this.trans hpos).ne', ?_⟩
  intro x
  subst ha
  unfold cylinderTurn
  simp only
  rw [if_neg hne, if_pos hpos]

/-- C140: for an axis that is tilted by more than the tolerances of the code, the solid that is meshed is the cylinder of
the given radius and height along the given axis, of whatever length the axis vector is. -/
theorem C140_cylinder_partial (radius height : ℝ) (axis : Fin 3 → ℝ) (h0 : norm3 axis ≠ 0)
    (hne : ¬ closeToEz fun i => axis i / norm3 axis)
    (htilt : (1 / 10 ^ 10) ^ 2 < (axis 0 / norm3 axis) ^ 2 + (axis 1 / norm3 axis) ^ 2) :
    cylinderSolid radius height axis = cylinderAlong radius height (fun i => axis i / norm3 axis) := by
  obtain ⟨hr, hturn⟩ := cylinderTurn_of_tilted axis _ rfl hne htilt
  have hk := gdot3_unit _ hr
  have hez := rotate3_ez _ (gdot3_unit axis h0) hr
  generalize (fun i => axis i / norm3 axis) = a at *
  generalize (fun i => gcross3 ez a i / norm3 (gcross3 ez a)) = k at *
  generalize Real.arccos (gdot3 ez a) = t at *
  have key : ∀ x, gdot3 (rotate3 k t x) a = x 2 ∧ gdot3 (rotate3 k t x) (rotate3 k t x) - gdot3 (rotate3 k t x) a ^ 2
      = x 0 ^ 2 + x 1 ^ 2 := by
    intro x
    have h1 : gdot3 (rotate3 k t x) a = x 2 := by
      conv_lhs => rw [← hez]
      rw [rotate3_dot k hk]
      simp [gdot3, ez]
    refine ⟨h1, ?_⟩
    rw [h1, rotate3_dot k hk]
    unfold gdot3
    ring
  ext y
  constructor
  · rintro ⟨x, ⟨h1, h2, h3⟩, rfl⟩
    rw [hturn]
    obtain ⟨e1, e2⟩ := key x
    refine ⟨by rw [e1]; exact h1, by rw [e1]; exact h2, by rw [e2]; exact h3⟩
  · rintro ⟨h1, h2, h3⟩
    have hy := rotate3_inv k hk t y
    obtain ⟨e1, e2⟩ := key (rotate3 k (-t) y)
    rw [hy] at e1 e2
    exact ⟨rotate3 k (-t) y, ⟨by rw [← e1]; exact h1, by rw [← e1]; exact h2, by rw [← e2]; exact h3⟩, by rw [hturn, hy]⟩

/-- C140: along the upright direction the solid is the upright cylinder. -/
theorem C140_cylinder_upright (radius height c : ℝ) (hc : 0 < c) :
    cylinderSolid radius height (fun i => c * ez i) = cylinderAlong radius height ez := by
  have hn : norm3 (fun i => c * ez i) = c := by
    unfold norm3
    rw [show gdot3 (fun i => c * ez i) (fun i => c * ez i) = c ^ 2 by simp [gdot3, ez]; ring]
    exact Real.sqrt_sq hc.le
  have hclose : closeToEz fun i => c * ez i / norm3 fun i => c * ez i := by
    intro i
    rw [hn]
    beta_reduce
    rw [mul_div_cancel_left₀ _ hc.ne', sub_self, abs_zero]
    positivity
  have hturn : ∀ x, cylinderTurn (fun i => c * ez i) x = x := by
    intro x
    unfold cylinderTurn
    simp only
    rw [if_pos hclose]
  have key : ∀ x : Fin 3 → ℝ, gdot3 x ez = x 2 ∧ gdot3 x x - gdot3 x ez ^ 2 = x 0 ^ 2 + x 1 ^ 2 := by
    intro x
    simp [gdot3, ez]
    ring
  ext y
  constructor
  · rintro ⟨x, ⟨h1, h2, h3⟩, rfl⟩
    rw [hturn]
    obtain ⟨e1, e2⟩ := key x
    exact ⟨by rw [e1]; exact h1, by rw [e1]; exact h2, by rw [e2]; exact h3⟩
  · rintro ⟨h1, h2, h3⟩
    obtain ⟨e1, e2⟩ := key y
    exact ⟨y, ⟨by rw [← e1]; exact h1, by rw [← e1]; exact h2, by rw [← e2]; exact h3⟩, (hturn y).symm⟩

/-- C140 fails for the downward axis: the cylinder is built upwards, so that it shares only its base with the one asked
for. -/
theorem C140_downward_axis_wrong (radius height : ℝ) (hh : 0 < height) :
    cylinderSolid radius height ![0, 0, -1] = cylinderAlong radius height ez ∧
    (![0, 0, height] : Fin 3 → ℝ) ∈ cylinderSolid radius height ![0, 0, -1] ∧
    (![0, 0, height] : Fin 3 → ℝ) ∉ cylinderAlong radius height ![0, 0, -1] := by
  have hn : norm3 ![0, 0, -1] = 1 := by simp [norm3, gdot3]
  have hnot : ¬ closeToEz fun i => (![0, 0, -1] : Fin 3 → ℝ) i / norm3 ![0, 0, -1] := by
    intro h
    have := h 2
    rw [hn] at this
    simp [ez] at this
    norm_num at this
  have hcr : gcross3 ez (fun i => (![0, 0, -1] : Fin 3 → ℝ) i / norm3 ![0, 0, -1]) = ![0, 0, 0] := by
    rw [hn]
    simp [gcross3, ez]
  have hn0 : norm3 ![0, 0, 0] = 0 := by simp [norm3, gdot3]
  have hturn : ∀ x, cylinderTurn ![0, 0, -1] x = x := by
    intro x
    unfold cylinderTurn
    simp only
    rw [if_neg hnot, hcr, hn0, if_neg (by norm_num)]
  have key : ∀ x : Fin 3 → ℝ, gdot3 x ez = x 2 ∧ gdot3 x x - gdot3 x ez ^ 2 = x 0 ^ 2 + x 1 ^ 2 := by
    intro x
    simp [gdot3, ez]
    ring
  have heq : cylinderSolid radius height ![0, 0, -1] = cylinderAlong radius height ez := by
    ext y
    constructor
    · rintro ⟨x, ⟨h1, h2, h3⟩, rfl⟩
      rw [hturn]
      obtain ⟨e1, e2⟩ := key x
      exact ⟨by rw [e1]; exact h1, by rw [e1]; exact h2, by rw [e2]; exact h3⟩
    · rintro ⟨h1, h2, h3⟩
      obtain ⟨e1, e2⟩ := key y
      exact ⟨y, ⟨by rw [← e1]; exact h1, by rw [← e1]; exact h2, by rw [← e2]; exact h3⟩, (hturn y).symm⟩
  refine ⟨heq, ?_, ?_⟩
  · rw [heq]
    refine ⟨?_, ?_, ?_⟩ <;> simp [gdot3, ez]
    · exact hh.le
    · nlinarith [sq_nonneg radius]
  · rintro ⟨h1, -, -⟩
    simp [gdot3] at h1
    linarith

example : norm3 ![3, 0, 4] = 5 := by
  unfold norm3
  rw [show gdot3 ![3, 0, 4] ![3, 0, 4] = 5 ^ 2 by simp [gdot3]; norm_num]
  exact Real.sqrt_sq (by norm_num)

example (radius height : ℝ) : cylinderSolid radius height ![3, 0, 4]
    = cylinderAlong radius height (fun i => (![3, 0, 4] : Fin 3 → ℝ) i / norm3 ![3, 0, 4]) := by
  have h5 : norm3 ![3, 0, 4] = 5 := by
    unfold norm3
    rw [show gdot3 ![3, 0, 4] ![3, 0, 4] = 5 ^ 2 by simp [gdot3]; norm_num]
    exact Real.sqrt_sq (by norm_num)
  refine C140_cylinder_partial radius height ![3, 0, 4] (by rw [h5]; norm_num) ?_ ?_
  · intro h
    have := h 0
    rw [h5] at this
    simp [ez] at this
    norm_num [abs_le] at this
  · rw [h5]
    simp
    norm_num

section
variable {K : Type*} [Field K] [LinearOrder K] [IsStrictOrderedRing K] [FloorSemiring K]

/-- C140: on an edge at least as long as the mesh size, the equal elements are at least as long as the mesh size and less
than twice as long; a shorter edge is one element. -/
theorem C140_box_element_size (l h : K) (hh : 0 < h) :
    (h ≤ l → ∃ n : ℕ, boxPoints l h = n + 1 ∧ 0 < n ∧ h ≤ l / n ∧ l / n < 2 * h) ∧ (l < h → boxPoints l h = 2) := by
  constructor
  · intro hl
    have h1 : 1 ≤ ⌊l / h⌋₊ := by
      rw [Nat.one_le_floor_iff, le_div_iff₀ hh, one_mul]
      exact hl
    refine ⟨⌊l / h⌋₊, by unfold boxPoints; omega, h1, ?_, ?_⟩
    · have hn : (0 : K) < (⌊l / h⌋₊ : K) := by exact_mod_cast h1
      rw [le_div_iff₀ hn, mul_comm, ← le_div_iff₀ hh]
      exact Nat.floor_le (div_nonneg (hh.le.trans hl) hh.le)
    · have hn : (0 : K) < (⌊l / h⌋₊ : K) := by exact_mod_cast h1
      rw [div_lt_iff₀ hn]
      have h2 := Nat.lt_floor_add_one (l / h)
      rw [div_lt_iff₀ hh] at h2
      have h3 : (1 : K) ≤ (⌊l / h⌋₊ : K) := by exact_mod_cast h1
      nlinarith
  · intro hl
    have : ⌊l / h⌋₊ = 0 := by
      rw [Nat.floor_eq_zero, div_lt_one hh]
      exact hl
    unfold boxPoints
    rw [this]
    rfl

omit [FloorSemiring K] in
/-- C140: every edge gets the number of points of its own direction, so that opposite edges match; the bounding boxes may be
enlarged by up to `δ` on each side, with `4 δ` below the edge lengths. -/
theorem C140_edges_match (n : Fin 3 → ℕ) (len d : Fin 3 → K) (δ : K) (k : Fin 3) (hδ : 4 * δ < len k)
    (hk : |d k - len k| ≤ 2 * δ) (ho : ∀ j, j ≠ k → |d j| ≤ 2 * δ) : edgePoints n d = n k := by
  have hk' : 2 * δ < d k := by
    have := (abs_le.mp hk).1
    linarith
  have ho' : ∀ j, j ≠ k → d j < d k := fun j hj => lt_of_le_of_lt ((abs_le.mp (ho j hj)).2) hk'
  have hcases : k = 0 ∨ k = 1 ∨ k = 2 := by clear * -; revert k; decide
  unfold edgePoints
  rcases hcases with rfl | rfl | rfl
  · rw [if_pos ⟨ho' 1 (by decide), ho' 2 (by decide)⟩]
  · have a := ho' 0 (by decide)
    rw [if_neg (fun h => absurd h.1 (not_lt.mpr a.le)), if_pos ⟨a, ho' 2 (by decide)⟩]
  · have a := ho' 0 (by decide)
    have b := ho' 1 (by decide)
    rw [if_neg (fun h => absurd h.2 (not_lt.mpr a.le)), if_neg (fun h => absurd h.2 (not_lt.mpr b.le))]

end

example : edgePoints ![3, 4, 5] (![0, (2 : ℚ), 0]) = 4 :=
  C140_edges_match _ ![1, 2, 1] _ 0 1 (by norm_num) (by norm_num) (by intro j hj; fin_cases j <;> simp_all)

example : ∃ n : ℕ, boxPoints (1 : ℚ) (3 / 10) = n + 1 ∧ 0 < n ∧ 3 / 10 ≤ 1 / (n : ℚ) ∧ 1 / (n : ℚ) < 2 * (3 / 10) :=
  (C140_box_element_size (1 : ℚ) (3 / 10) (by norm_num)).1 (by norm_num)

end Verif.Props
