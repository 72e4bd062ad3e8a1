import Verif.Model.StiffnessSphere
import Verif.Props.Voigt
import Mathlib.Data.List.GetD
import Mathlib.Analysis.SpecialFunctions.Trigonometric.Complex
import Mathlib.Analysis.SpecialFunctions.Trigonometric.ComplexDeriv
import Mathlib.Tactic.Positivity

/-!
# The stiffness surface (C144)
-/

namespace Verif.Props
open Verif.Model

/-! ## Specification -/

namespace Spec

/-- A positive definite compliance: strain energy of every stress is positive. -/
def PosCompliance (S : Fin 6 → Fin 6 → ℝ) : Prop := ∀ s : Fin 6 → ℝ, s ≠ 0 → 0 < ∑ a, ∑ b, s a * S a b * s b

/-- The direction of grid line `i` in azimuth (of `nPhi`, the last one closing the circle) and `j` in polar angle (of `nTheta`, from
pole to pole). -/
noncomputable def gridDirection (nTheta nPhi i j : ℕ) : Fin 3 → ℝ :=
  ![Real.sin (Real.pi * j / (nTheta - 1)) * Real.cos (2 * Real.pi * i / (nPhi - 1)),
    Real.sin (Real.pi * j / (nTheta - 1)) * Real.sin (2 * Real.pi * i / (nPhi - 1)), Real.cos (Real.pi * j / (nTheta - 1))]

end Spec

/-! ## Proofs -/

theorem getD_flatMap_range {α : Type*} (d : α) (m n : ℕ) (f : ℕ → ℕ → α) (i j : ℕ) (hi : i < m) (hj : j < n) :
    ((List.range m).flatMap fun i => (List.range n).map (f i)).getD (i * n + j) d = f i j := by
  induction m generalizing i f with
  | zero => omega
  | succ m ih =>
    rw [List.range_succ_eq_map, List.flatMap_cons, List.flatMap_map]
    rcases i with _ | i
    · rw [List.getD_append _ _ _ _ (by simpa using hj)]
      simp [hj]
    · rw [List.getD_append_right _ _ _ _ (by simp; nlinarith)]
      have := ih (fun i => f (i + 1)) i (by omega)
      rw [← this]
      congr 1
      simp only [List.length_map, List.length_range]
      rw [Nat.add_mul]; omega

theorem length_flatMap_range {α : Type*} (m n : ℕ) (f : ℕ → ℕ → α) :
    ((List.range m).flatMap fun i => (List.range n).map (f i)).length = m * n := by
  simp [List.length_flatMap]

theorem linSample_eq (stop : ℝ) (n i : ℕ) (hn : 2 ≤ n) : linSample stop n i = stop * i / (n - 1) := by
  unfold linSample
  rw [if_neg (by omega), Nat.cast_sub (by omega)]
  push_cast; ring

theorem sphereDirs_getD (nTheta nPhi i j : ℕ) (ht : 2 ≤ nTheta) (hp : 2 ≤ nPhi) (hi : i < nPhi) (hj : j < nTheta) :
    (sphereDirs nTheta nPhi).getD (i * nTheta + j) 0 = Spec.gridDirection nTheta nPhi i j := by
  unfold sphereDirs
  rw [getD_flatMap_range 0 nPhi nTheta _ i j hi hj, linSample_eq _ _ _ ht, linSample_eq _ _ _ hp]
  rfl

theorem sphereDir_unit (a b : ℝ) : sphereDir a b 0 ^ 2 + sphereDir a b 1 ^ 2 + sphereDir a b 2 ^ 2 = 1 := by
  simp only [sphereDir, Matrix.cons_val_zero, Matrix.cons_val_one, Matrix.cons_val]
  have h1 := Real.sin_sq_add_cos_sq a
  have h2 := Real.sin_sq_add_cos_sq b
  nlinarith

theorem sphereDirs_unit (nTheta nPhi : ℕ) (n : Fin 3 → ℝ) (hn : n ∈ sphereDirs nTheta nPhi) : n 0 ^ 2 + n 1 ^ 2 + n 2 ^ 2 = 1 := by
  unfold sphereDirs at hn
  rw [List.mem_flatMap] at hn
  obtain ⟨i, _, hn⟩ := hn
  obtain ⟨j, _, rfl⟩ := List.mem_map.mp hn
  exact sphereDir_unit _ _

theorem maxOf_spec (xs : List ℝ) : ∀ x, (∀ y ∈ x :: xs, y ≤ maxOf x xs) ∧ maxOf x xs ∈ x :: xs := by
  induction xs with
  | nil => intro x; simp [maxOf]
  | cons z xs ih =>
    intro x
    have h := ih (max x z)
    have e : maxOf x (z :: xs) = maxOf (max x z) xs := rfl
    rw [e]
    refine ⟨?_, ?_⟩
    · intro y hy
      have h0 := h.1 (max x z) List.mem_cons_self
      rcases List.mem_cons.mp hy with rfl | hy
      · exact (le_max_left _ _).trans h0
      · rcases List.mem_cons.mp hy with rfl | hy
        · exact (le_max_right _ _).trans h0
        · exact h.1 y (List.mem_cons_of_mem _ hy)
    · rcases List.mem_cons.mp h.2 with h2 | h2
      · rw [h2]; rcases max_choice x z with h3 | h3 <;> rw [h3] <;> simp
      · exact List.mem_cons_of_mem _ (List.mem_cons_of_mem _ h2)

theorem minOf_spec (xs : List ℝ) : ∀ x, (∀ y ∈ x :: xs, minOf x xs ≤ y) ∧ minOf x xs ∈ x :: xs := by
  induction xs with
  | nil => intro x; simp [minOf]
  | cons z xs ih =>
    intro x
    have h := ih (min x z)
    have e : minOf x (z :: xs) = minOf (min x z) xs := rfl
    rw [e]
    refine ⟨?_, ?_⟩
    · intro y hy
      have h0 := h.1 (min x z) List.mem_cons_self
      rcases List.mem_cons.mp hy with rfl | hy
      · exact h0.trans (min_le_left _ _)
      · rcases List.mem_cons.mp hy with rfl | hy
        · exact h0.trans (min_le_right _ _)
        · exact h.1 y (List.mem_cons_of_mem _ hy)
    · rcases List.mem_cons.mp h.2 with h2 | h2
      · rw [h2]; rcases min_choice x z with h3 | h3 <;> rw [h3] <;> simp
      · exact List.mem_cons_of_mem _ (List.mem_cons_of_mem _ h2)

theorem modulus_pos {S : Fin 6 → Fin 6 → ℝ} (hS : Spec.PosCompliance S) (n : Fin 3 → ℝ) (hn : n 0 ^ 2 + n 1 ^ 2 + n 2 ^ 2 = 1) :
    0 < youngsModulus S n := by
  rw [C63_formula]
  refine one_div_pos.mpr (hS _ fun h => ?_)
  have h0 : n 0 * n 0 = 0 := congrFun h 0
  have h1 : n 1 * n 1 = 0 := congrFun h 1
  have h2 : n 2 * n 2 = 0 := congrFun h 2
  nlinarith

/-- The samples of a result: maximum and minimum are those of the sampled directions. -/
theorem sphere_ok {S : Fin 6 → Fin 6 → ℝ} {nTheta nPhi : ℕ} {r : StiffnessSphere} (h : stiffnessSphere S nTheta nPhi = .ok r) :
    r.values = (sphereDirs nTheta nPhi).map (youngsModulus S) ∧
      r.points = (sphereDirs nTheta nPhi).map (fun n i => youngsModulus S n / r.eMax * n i) ∧ r.cells = sphereCells nTheta nPhi ∧
      r.ratio = r.eMax / r.eMin ∧ (∀ n ∈ sphereDirs nTheta nPhi, r.eMin ≤ youngsModulus S n ∧ youngsModulus S n ≤ r.eMax) ∧
      (∃ n ∈ sphereDirs nTheta nPhi, youngsModulus S n = r.eMax) ∧ ∃ n ∈ sphereDirs nTheta nPhi, youngsModulus S n = r.eMin := by
  unfold stiffnessSphere at h
  simp only at h
  split at h
  · cases h
  · rename_i e es he
    cases h
    obtain ⟨h1, h2⟩ := maxOf_spec es e
    obtain ⟨h3, h4⟩ := minOf_spec es e
    rw [← he] at h1 h2 h3 h4
    refine ⟨he.symm, rfl, rfl, rfl, fun n hn => ⟨h3 _ (List.mem_map_of_mem hn), h1 _ (List.mem_map_of_mem hn)⟩, ?_, ?_⟩
    · exact List.mem_map.mp h2
    · exact List.mem_map.mp h4

/-- C144, the surface: for a positive definite material and a grid with at least two lines each way, the vertex of grid lines `i`, `j`
lies in their direction at distance `E(n)/E_max`, carries `E(n)`, no vertex is farther than one from the centre and one is exactly that
far. -/
theorem C144_surface (S : Fin 6 → Fin 6 → ℝ) (hS : Spec.PosCompliance S) (nTheta nPhi : ℕ) (ht : 2 ≤ nTheta) (hp : 2 ≤ nPhi) :
    ∃ r, stiffnessSphere S nTheta nPhi = .ok r ∧ r.points.length = nPhi * nTheta ∧ r.values.length = nPhi * nTheta ∧ 0 < r.eMax ∧
      (∀ i < nPhi, ∀ j < nTheta, r.values.getD (i * nTheta + j) 0 = youngsModulus S (Spec.gridDirection nTheta nPhi i j) ∧
        ∀ c, r.points.getD (i * nTheta + j) 0 c =
          youngsModulus S (Spec.gridDirection nTheta nPhi i j) / r.eMax * Spec.gridDirection nTheta nPhi i j c) ∧
      (∀ p ∈ r.points, p 0 ^ 2 + p 1 ^ 2 + p 2 ^ 2 ≤ 1) ∧ ∃ p ∈ r.points, p 0 ^ 2 + p 1 ^ 2 + p 2 ^ 2 = 1 := by
  have hlen : (sphereDirs nTheta nPhi).length = nPhi * nTheta := by unfold sphereDirs; rw [length_flatMap_range]
  have hne : ∃ r, stiffnessSphere S nTheta nPhi = .ok r := by
    unfold stiffnessSphere
    simp only
    split
    · rename_i he
      have := congrArg List.length he
      rw [List.length_map, hlen, List.length_nil] at this
      have : 0 < nPhi * nTheta := by positivity
      omega
    · exact ⟨_, rfl⟩
  obtain ⟨r, hr⟩ := hne
  obtain ⟨hv, hpnt, _, _, hb, ⟨nm, hnm, hem⟩, _⟩ := sphere_ok hr
  have hmax : 0 < r.eMax := by rw [← hem]; exact modulus_pos hS nm (sphereDirs_unit _ _ _ hnm)
  have hsq : ∀ (a : ℝ) (n : Fin 3 → ℝ), n 0 ^ 2 + n 1 ^ 2 + n 2 ^ 2 = 1 → (a * n 0) ^ 2 + (a * n 1) ^ 2 + (a * n 2) ^ 2 = a ^ 2 := by
    intro a n hn
    linear_combination a ^ 2 * hn
  refine ⟨r, hr, by rw [hpnt, List.length_map, hlen], by rw [hv, List.length_map, hlen], hmax, ?_, ?_, ?_⟩
  · intro i hi j hj
    have hk : i * nTheta + j < (sphereDirs nTheta nPhi).length := by
      rw [hlen]; nlinarith
    have hd := sphereDirs_getD nTheta nPhi i j ht hp hi hj
    rw [List.getD_eq_getElem _ _ hk] at hd
    constructor
    · rw [hv, List.getD_eq_getElem _ _ (by rw [List.length_map]; exact hk), List.getElem_map, hd]
    · intro c
      rw [hpnt, List.getD_eq_getElem _ _ (by rw [List.length_map]; exact hk), List.getElem_map, hd]
  · intro p hpm
    rw [hpnt] at hpm
    obtain ⟨n, hn, rfl⟩ := List.mem_map.mp hpm
    rw [hsq _ _ (sphereDirs_unit _ _ _ hn)]
    have h1 := (hb n hn).2
    have h2 := modulus_pos hS n (sphereDirs_unit _ _ _ hn)
    have h3 : youngsModulus S n / r.eMax ≤ 1 := (div_le_one hmax).mpr h1
    have h4 : 0 ≤ youngsModulus S n / r.eMax := by positivity
    nlinarith
  · refine ⟨_, by rw [hpnt]; exact List.mem_map_of_mem hnm, ?_⟩
    rw [hsq _ _ (sphereDirs_unit _ _ _ hnm), hem, div_self hmax.ne', one_pow]

/-- C144, the mesh: one quadrilateral for each pair of neighbouring azimuth lines and neighbouring polar lines, through their four
different crossings in order; the last azimuth line is the first one and all lines meet at the poles, so the surface closes. -/
theorem C144_mesh (nTheta nPhi : ℕ) (ht : 2 ≤ nTheta) (hp : 2 ≤ nPhi) :
    (sphereCells nTheta nPhi).length = (nPhi - 1) * (nTheta - 1) ∧
      (∀ i j, i + 1 < nPhi → j + 1 < nTheta → (sphereCells nTheta nPhi).getD (i * (nTheta - 1) + j) [] =
        [i * nTheta + j, i * nTheta + (j + 1), (i + 1) * nTheta + (j + 1), (i + 1) * nTheta + j]) ∧
      (∀ q ∈ sphereCells nTheta nPhi, q.Nodup ∧ ∀ k ∈ q, k < nPhi * nTheta) ∧
      (∀ j, Spec.gridDirection nTheta nPhi (nPhi - 1) j = Spec.gridDirection nTheta nPhi 0 j) ∧
      ∀ i, Spec.gridDirection nTheta nPhi i 0 = ![0, 0, 1] ∧ Spec.gridDirection nTheta nPhi i (nTheta - 1) = ![0, 0, -1] := by
  have ht1 : ((nTheta : ℝ) - 1) ≠ 0 := by
    have : (2 : ℝ) ≤ nTheta := by exact_mod_cast ht
    linarith
  have hp1 : ((nPhi : ℝ) - 1) ≠ 0 := by
    have : (2 : ℝ) ≤ nPhi := by exact_mod_cast hp
    linarith
  refine ⟨by unfold sphereCells; rw [length_flatMap_range], ?_, ?_, ?_, ?_⟩
  · intro i j hi hj
    unfold sphereCells
    rw [getD_flatMap_range [] (nPhi - 1) (nTheta - 1) _ i j (by omega) (by omega)]
  · intro q hq
    unfold sphereCells at hq
    rw [List.mem_flatMap] at hq
    obtain ⟨i, hi, hq⟩ := hq
    obtain ⟨j, hj, rfl⟩ := List.mem_map.mp hq
    rw [List.mem_range] at hi hj
    have e : (i + 1) * nTheta = i * nTheta + nTheta := by ring
    have hle : i * nTheta + nTheta + nTheta ≤ nPhi * nTheta := by
      have : (i + 2) * nTheta ≤ nPhi * nTheta := Nat.mul_le_mul_right _ (by omega)
      linarith
    rw [e]
    generalize i * nTheta = A at *
    refine ⟨?_, ?_⟩
    · simp only [List.nodup_cons, List.mem_cons, List.not_mem_nil, or_false, not_or, List.nodup_nil, and_true, not_false_iff]
      omega
    · intro k hk
      simp only [List.mem_cons, List.not_mem_nil, or_false] at hk
      omega
  · intro j
    unfold Spec.gridDirection
    rw [Nat.cast_sub (by omega), Nat.cast_one, mul_div_assoc (2 * Real.pi), div_self hp1]
    simp
  · intro i
    unfold Spec.gridDirection
    rw [Nat.cast_sub (by omega), Nat.cast_one, mul_div_assoc Real.pi (_ - _), div_self ht1]
    simp

/-- C144 (partial), the statistics: `E_max` and `E_min` bound the modulus of the sampled directions and are attained, their ratio is at
least one, and exactly one for an isotropic material. Missing: they are not the extremes over all directions
(`C144_default_grid_misses_axis`). -/
theorem C144_statistics_partial (S : Fin 6 → Fin 6 → ℝ) (hS : Spec.PosCompliance S) (nTheta nPhi : ℕ) (r : StiffnessSphere)
    (h : stiffnessSphere S nTheta nPhi = .ok r) :
    (∀ e ∈ r.values, r.eMin ≤ e ∧ e ≤ r.eMax) ∧ r.eMax ∈ r.values ∧ r.eMin ∈ r.values ∧ 1 ≤ r.ratio ∧
      ∀ l g : ℝ, 0 < g → 0 < 3 * l + 2 * g → (∀ i j, ∑ k, S i k * isotropic l g k j = if i = j then 1 else 0) → r.ratio = 1 := by
  obtain ⟨hv, _, _, hr, hb, ⟨nm, hnm, hem⟩, ⟨nn, hnn, hen⟩⟩ := sphere_ok h
  have hmin : 0 < r.eMin := by rw [← hen]; exact modulus_pos hS nn (sphereDirs_unit _ _ _ hnn)
  refine ⟨?_, ?_, ?_, ?_, ?_⟩
  · intro e he
    rw [hv] at he
    obtain ⟨n, hn, rfl⟩ := List.mem_map.mp he
    exact hb n hn
  · rw [hv, ← hem]; exact List.mem_map_of_mem hnm
  · rw [hv, ← hen]; exact List.mem_map_of_mem hnn
  · rw [hr, le_div_iff₀ hmin, one_mul, ← hem]
    exact (hb nm hnm).1
  · intro l g hg hk hI
    rw [hr, ← hem, ← hen, C63_isotropic l g hg.ne' hk.ne' S hI nm (sphereDirs_unit _ _ _ hnm),
      C63_isotropic l g hg.ne' hk.ne' S hI nn (sphereDirs_unit _ _ _ hnn), div_self]
    rw [← C63_isotropic l g hg.ne' hk.ne' S hI nn (sphereDirs_unit _ _ _ hnn), hen]
    exact hmin.ne'

/-- A material twice as stiff along the first axis as along the others: `C = diag(2, 1, 1, 1/2, 1/2, 1/2)`. -/
noncomputable def axialS : Fin 6 → Fin 6 → ℝ := fun i j => if i = j then ![1 / 2, 1, 1, 2, 2, 2] i else 0
noncomputable def axialC : Fin 6 → Fin 6 → ℝ := fun i j => if i = j then ![2, 1, 1, 1 / 2, 1 / 2, 1 / 2] i else 0

theorem axial_inverse (i j : Fin 6) : ∑ k, axialS i k * axialC k j = if i = j then 1 else 0 := by
  unfold axialS axialC
  fin_cases i <;> fin_cases j <;> simp

theorem axial_pos : Spec.PosCompliance axialS := by
  intro s hs
  have e : ∑ a, ∑ b, s a * axialS a b * s b = s 0 ^ 2 / 2 + s 1 ^ 2 + s 2 ^ 2 + 2 * s 3 ^ 2 + 2 * s 4 ^ 2 + 2 * s 5 ^ 2 := by
    unfold axialS
    simp [Fin.sum_univ_six]
    ring
  rw [e]
  by_contra hc
  apply hs
  have hn : ∀ i, s i ^ 2 = 0 := by
    intro i
    have := sq_nonneg (s 0); have := sq_nonneg (s 1); have := sq_nonneg (s 2)
    have := sq_nonneg (s 3); have := sq_nonneg (s 4); have := sq_nonneg (s 5)
    fin_cases i <;> dsimp <;> linarith
  funext i
  exact pow_eq_zero_iff (two_ne_zero) |>.mp (hn i)

theorem axial_modulus (n : Fin 3 → ℝ) (hn : n 0 ^ 2 + n 1 ^ 2 + n 2 ^ 2 = 1) : youngsModulus axialS n = 1 / (1 - n 0 ^ 4 / 2) := by
  rw [C63_formula]
  congr 1
  unfold axialS
  simp [Fin.sum_univ_six, uniaxialStress]
  linear_combination (n 0 ^ 2 + n 1 ^ 2 + n 2 ^ 2 + 1) * hn

example : ∃ r, stiffnessSphere axialS 30 60 = .ok r ∧ r.points.length = 1800 ∧ 0 < r.eMax := by
  obtain ⟨r, h1, h2, _, h3, _⟩ := C144_surface axialS axial_pos 30 60 (by norm_num) (by norm_num)
  exact ⟨r, h1, h2, h3⟩

/-- C144 fails for the extremes: the default grid (30 polar lines) has no line on the equator, so for the material above, which is
stiffest along the first axis, `E_max` is less than the modulus along that axis. -/
theorem C144_default_grid_misses_axis :
    youngsModulus axialS ![1, 0, 0] = 2 ∧ ∃ r, stiffnessSphere axialS 30 60 = .ok r ∧ r.eMax < 2 := by
  constructor
  · rw [axial_modulus _ (by simp)]
    norm_num
  · obtain ⟨r, h1, _⟩ := C144_surface axialS axial_pos 30 60 (by norm_num) (by norm_num)
    refine ⟨r, h1, ?_⟩
    obtain ⟨_, _, _, _, _, ⟨n, hn, he⟩, _⟩ := sphere_ok h1
    have hu := sphereDirs_unit _ _ _ hn
    rw [← he, axial_modulus n hu]
    have hlt : n 0 ^ 2 < 1 := by
      by_contra hc
      have h2 : n 2 ^ 2 = 0 := le_antisymm (by nlinarith [sq_nonneg (n 1)]) (sq_nonneg _)
      have h2' : n 2 = 0 := pow_eq_zero_iff two_ne_zero |>.mp h2
      unfold sphereDirs at hn
      rw [List.mem_flatMap] at hn
      obtain ⟨i, _, hn⟩ := hn
      obtain ⟨j, hj, rfl⟩ := List.mem_map.mp hn
      rw [linSample_eq _ _ _ (by norm_num)] at h2'
      simp only [sphereDir, Matrix.cons_val] at h2'
      rw [Real.cos_eq_zero_iff] at h2'
      obtain ⟨k, hk⟩ := h2'
      have hpi := Real.pi_pos.ne'
      have : (2 * j : ℝ) = (2 * k + 1) * 29 := by
        push_cast at hk
        field_simp at hk
        linarith
      have : (2 * j : ℤ) = (2 * k + 1) * 29 := by exact_mod_cast this
      omega
    have h4 : n 0 ^ 4 < 1 := by nlinarith [sq_nonneg (n 0)]
    rw [div_lt_iff₀ (by linarith)]
    linarith

/-- C144: a grid without directions, and only such a grid, is refused, with `ValueError`. -/
theorem C144_empty_grid_refused (S : Fin 6 → Fin 6 → ℝ) (nTheta nPhi : ℕ) (e : PyErr) :
    stiffnessSphere S nTheta nPhi = .error e ↔ e = .valueError ∧ (nTheta = 0 ∨ nPhi = 0) := by
  have hlen : ((sphereDirs nTheta nPhi).map (youngsModulus S)).length = nPhi * nTheta := by
    rw [List.length_map]; unfold sphereDirs; rw [length_flatMap_range]
  unfold stiffnessSphere
  simp only
  split
  · rename_i h
    rw [h, List.length_nil] at hlen
    have : nTheta = 0 ∨ nPhi = 0 := (Nat.mul_eq_zero.mp hlen.symm).symm
    simp [this, eq_comm]
  · rename_i h
    rw [h, List.length_cons] at hlen
    constructor
    · intro h; cases h
    · rintro ⟨-, h | h⟩ <;> simp [h] at hlen

end Verif.Props
