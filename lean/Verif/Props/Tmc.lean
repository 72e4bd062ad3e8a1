import Verif.Model.Tmc
import Verif.Props.Geometry
import Mathlib.Analysis.Calculus.Deriv.MeanValue
import Mathlib.Analysis.Calculus.LocalExtr.Basic
import Mathlib.Analysis.SpecialFunctions.Log.Deriv
import Mathlib.Algebra.Order.Chebyshev
import Mathlib.Analysis.Calculus.Deriv.Polynomial
import Mathlib.LinearAlgebra.Matrix.Charpoly.Coeff

/-!
# C95: third medium contact
-/

namespace Verif.Props

open Verif.Model

/-! ### Classification of cells -/

theorem mapM_ok_map {A B : Type*} (l : List A) (f : A → Except PyErr B) (g : A → B) (h : ∀ a ∈ l, f a = .ok (g a)) :
    l.mapM f = .ok (l.map g) := by
  induction l with
  | nil => rfl
  | cons a l ih =>
    rw [List.mapM_cons, h a (by simp), ih fun b hb => h b (by simp [hb])]
    rfl

/-- **C95.** On a mesh with valid node numbers, `classify_medium_cells` gives one indicator per cell: one exactly where the predicate
holds at the mean of the first corner nodes, zero elsewhere. -/
theorem C95_classification {d : ℕ} (points : List (Fin d → ℝ)) (cells : List (List ℕ)) (isMedium : (Fin d → ℝ) → Bool) (corners : ℕ)
    (hc : ∀ c ∈ cells, ∀ a ∈ c, a < points.length) :
    ∃ res, classifyMediumCells points cells isMedium corners = .ok res ∧ res.length = cells.length ∧
      ∀ (k : ℕ) (hk : k < cells.length),
        let corner := (cells[k].take corners).map fun a => points.getD a 0
        res.getD k 0 = if isMedium (fun i => (corner.map fun p => p i).sum / corner.length) then 1 else 0 := by
  have h1 : ∀ c ∈ cells, cellCentroid points c corners =
      .ok (fun i => (((c.take corners).map fun a => points.getD a 0).map fun p => p i).sum / ((c.take corners).map fun a => points.getD a 0).length) := by
    intro c hcm
    unfold cellCentroid
    rw [mapM_ok_map (c.take corners) _ (fun a => points.getD a 0)]
    · rfl
    · intro a ha
      have := hc c hcm a (List.mem_of_mem_take ha)
      rw [List.getElem?_eq_getElem this, List.getD_eq_getElem _ _ this]
      rfl
  have hrun : classifyMediumCells points cells isMedium corners = .ok (cells.map fun c => if isMedium (fun i =>
      (((c.take corners).map fun a => points.getD a 0).map fun p => p i).sum / ((c.take corners).map fun a => points.getD a 0).length) then 1 else 0) := by
    unfold classifyMediumCells
    rw [mapM_ok_map cells _ _ h1]
    simp only [bind, Except.bind, pure, Except.pure, List.map_map]
    rfl
  refine ⟨_, hrun, by simp, ?_⟩
  intro k hk
  dsimp only
  rw [List.getD_eq_getElem _ _ (by simpa using hk), List.getElem_map]

/-- Two triangles; the predicate asks for the right half. -/
example : classifyMediumCells (d := 2) [![0, 0], ![1, 0], ![0, 1], ![3, 0]] [[0, 1, 2], [1, 3, 2]] (fun p => decide (p 0 > 1)) 3 = .ok [0, 1] := by
  obtain ⟨res, h, hl, hv⟩ := C95_classification (d := 2) [![0, 0], ![1, 0], ![0, 1], ![3, 0]] [[0, 1, 2], [1, 3, 2]]
    (fun p => decide (p 0 > 1)) 3 (by simp)
  rw [h]
  have h0 := hv 0 (by simp)
  have h1 := hv 1 (by simp)
  norm_num at h0 h1
  match res, hl with
  | [a, b], _ =>
    simp at h0 h1
    rw [h0, h1]

/-! ### The logarithm and its extension -/

/-- The derivative of the extended logarithm. -/
noncomputable def lnSlope (J : ℝ) : ℝ := if J > tmcJmin then 1 / J else (1 - (J - tmcJmin) / tmcJmin) / tmcJmin

/-- The second derivative of the extended logarithm. -/
noncomputable def lnCurvature (J : ℝ) : ℝ := if J > tmcJmin then -(1 / J ^ 2) else -(1 / tmcJmin ^ 2)

theorem jmin_pos : 0 < tmcJmin := by norm_num [tmcJmin]

/-- A function given by two differentiable pieces that agree at the joint to first order. -/
theorem hasDerivAt_pieces {f g f' g' : ℝ → ℝ} {c : ℝ} (hf : ∀ x ≤ c, HasDerivAt f (f' x) x) (hg : ∀ x ≥ c, HasDerivAt g (g' x) x)
    (h0 : f c = g c) (h1 : f' c = g' c) (x : ℝ) :
    HasDerivAt (fun t => if t > c then g t else f t) (if x > c then g' x else f' x) x := by
  rcases lt_trichotomy x c with h | h | h
  · rw [if_neg (by linarith)]
    refine (hf x h.le).congr_of_eventuallyEq ?_
    filter_upwards [gt_mem_nhds h] with t ht
    rw [if_neg (by linarith)]
  · subst h
    rw [if_neg (lt_irrefl x)]
    have hl : HasDerivWithinAt (fun t => if t > x then g t else f t) (f' x) (Set.Iic x) x := by
      refine (hf x le_rfl).hasDerivWithinAt.congr ?_ ?_
      · intro t ht
        rw [if_neg (not_lt.mpr ht)]
      · rw [if_neg (lt_irrefl x)]
    have hr : HasDerivWithinAt (fun t => if t > x then g t else f t) (f' x) (Set.Ici x) x := by
      rw [h1]
      refine (hg x le_rfl).hasDerivWithinAt.congr ?_ ?_
      · intro t ht
        rcases eq_or_lt_of_le (Set.mem_Ici.mp ht) with h | h
        · rw [← h, if_neg (lt_irrefl x), h0]
        · rw [if_pos h]
      · rw [if_neg (lt_irrefl x), h0]
    have := hl.union hr
    rwa [Set.Iic_union_Ici, hasDerivWithinAt_univ] at this
  · rw [if_pos h]
    refine (hg x h.le).congr_of_eventuallyEq ?_
    filter_upwards [lt_mem_nhds h] with t ht
    rw [if_pos ht]

/-- **C95.** The logarithm of the energy is the true one above `1e-4` and is extended to every real number, also to inverted elements,
twice differentiable with continuous second derivative, strictly increasing and concave. -/
theorem C95_log_extension :
    (∀ J, J > 1 / 10000 → safeLnJ J = Real.log J) ∧
    (∀ J, HasDerivAt safeLnJ (lnSlope J) J) ∧ (∀ J, HasDerivAt lnSlope (lnCurvature J) J) ∧ Continuous lnCurvature ∧
    StrictMono safeLnJ ∧ ∀ J, lnCurvature J < 0 := by
  have hp := jmin_pos
  have d1 : ∀ J, HasDerivAt safeLnJ (lnSlope J) J := by
    intro J
    unfold safeLnJ lnSlope
    refine hasDerivAt_pieces (f := fun J => Real.log tmcJmin + (J - tmcJmin) / tmcJmin - 1 / 2 * ((J - tmcJmin) / tmcJmin) ^ 2)
      (g := Real.log) (f' := fun J => (1 - (J - tmcJmin) / tmcJmin) / tmcJmin) (g' := fun J => 1 / J) ?_ ?_ ?_ ?_ J
    · intro x _
      have hs : HasDerivAt (fun x => (x - tmcJmin) / tmcJmin) (1 / tmcJmin) x := ((hasDerivAt_id x).sub_const _).div_const _
      refine ((hs.const_add _).sub ((hs.pow 2).const_mul (1 / 2))).congr_deriv ?_
      simp
      ring
    · intro x hx
      rw [one_div]
      exact Real.hasDerivAt_log (by linarith)
    · simp
    · simp
  have d2 : ∀ J, HasDerivAt lnSlope (lnCurvature J) J := by
    intro J
    unfold lnSlope lnCurvature
    refine hasDerivAt_pieces (f := fun J => (1 - (J - tmcJmin) / tmcJmin) / tmcJmin) (g := fun J => 1 / J)
      (f' := fun _ => -(1 / tmcJmin ^ 2)) (g' := fun J => -(1 / J ^ 2)) ?_ ?_ ?_ ?_ J
    · intro x _
      refine (((((hasDerivAt_id x).sub_const _).div_const _).const_sub 1).div_const tmcJmin).congr_deriv ?_
      field_simp
    · intro x hx
      have := hasDerivAt_inv (x := x) (by linarith)
      simpa [one_div] using this
    · simp
    · rfl
  refine ⟨?_, d1, d2, ?_, ?_, ?_⟩
  · intro J hJ
    unfold safeLnJ
    rw [show (1 : ℝ) / 10000 = tmcJmin from rfl] at hJ
    simp [hJ]
  · have e : lnCurvature = fun J => -(1 / max J tmcJmin ^ 2) := by
      funext J
      unfold lnCurvature
      split_ifs with h
      · rw [max_eq_left h.le]
      · rw [max_eq_right (not_lt.mp h)]
    rw [e]
    refine (continuous_const.div ((continuous_id.max continuous_const).pow 2) fun J => ?_).neg
    have : 0 < max J tmcJmin := lt_max_of_lt_right hp
    exact (pow_pos this 2).ne'
  · apply strictMono_of_deriv_pos
    intro J
    rw [(d1 J).deriv]
    unfold lnSlope
    split_ifs with h
    · have : 0 < J := by linarith
      positivity
    · apply div_pos _ hp
      have : (J - tmcJmin) / tmcJmin ≤ 0 := div_nonpos_of_nonpos_of_nonneg (by linarith) hp.le
      linarith
  · intro J
    unfold lnCurvature
    split_ifs with h
    · have : 0 < J := by linarith
      have : 0 < 1 / J ^ 2 := by positivity
      linarith
    · have : 0 < 1 / tmcJmin ^ 2 := by positivity
      linarith

theorem safeLnJ_low {J : ℝ} (h : J ≤ tmcJmin) : safeLnJ J < -(3 / 2) := by
  have hp := jmin_pos
  have hlog : Real.log tmcJmin < -(3 / 2) := by
    have h1 : Real.log tmcJmin = -(4 * Real.log 10) := by
      rw [tmcJmin, show (1 : ℝ) / 10000 = ((10 : ℝ) ^ 4)⁻¹ by norm_num, Real.log_inv, Real.log_pow]
      norm_num
    have h2 := Real.one_sub_inv_le_log_of_pos (show (0 : ℝ) < 10 by norm_num)
    rw [h1]
    norm_num at h2
    linarith
  unfold safeLnJ
  dsimp only
  rw [if_neg (not_lt.mpr h)]
  have : (J - tmcJmin) / tmcJmin ≤ 0 := div_nonpos_of_nonpos_of_nonneg (by linarith) hp.le
  nlinarith [sq_nonneg ((J - tmcJmin) / tmcJmin)]

theorem safeLnJ_one : safeLnJ 1 = 0 := by
  rw [C95_log_extension.1 1 (by norm_num), Real.log_one]

/-! ### The energy -/

/-- `F` is a rotation. -/
def IsRotation {d : ℕ} (F : Matrix (Fin d) (Fin d) ℝ) : Prop := F * F.transpose = 1 ∧ F.det = 1

theorem trC_eq {d : ℕ} (F : Matrix (Fin d) (Fin d) ℝ) : (F.transpose * F).trace = ∑ i, ∑ j, F i j ^ 2 := by
  simp only [Matrix.trace, Matrix.diag, Matrix.mul_apply, Matrix.transpose_apply]
  rw [Finset.sum_comm]
  exact Finset.sum_congr rfl fun i _ => Finset.sum_congr rfl fun j _ => by ring

/-- The inequality behind the energy: `2 ln J ≤ tr C - d`, with equality at rotations only. -/
def LogBound (d : ℕ) : Prop := ∀ F : Matrix (Fin d) (Fin d) ℝ,
  2 * safeLnJ F.det ≤ (F.transpose * F).trace - d ∧ (2 * safeLnJ F.det = (F.transpose * F).trace - d → IsRotation F)

theorem logBound_two : LogBound 2 := by
  intro F
  have htr : (F.transpose * F).trace = F 0 0 ^ 2 + F 0 1 ^ 2 + F 1 0 ^ 2 + F 1 1 ^ 2 := by
    rw [trC_eq]; simp [Fin.sum_univ_two]; ring
  have hdet : F.det = F 0 0 * F 1 1 - F 0 1 * F 1 0 := Matrix.det_fin_two F
  obtain ⟨a, ha⟩ : ∃ a, a = F 0 0 := ⟨_, rfl⟩
  obtain ⟨b, hb⟩ : ∃ b, b = F 0 1 := ⟨_, rfl⟩
  obtain ⟨c, hc⟩ : ∃ c, c = F 1 0 := ⟨_, rfl⟩
  obtain ⟨e, he⟩ : ∃ e, e = F 1 1 := ⟨_, rfl⟩
  rw [← ha, ← hb, ← hc, ← he] at htr hdet
  rw [htr]
  by_cases h : F.det > tmcJmin
  · have hpos : 0 < F.det := lt_trans jmin_pos h
    rw [C95_log_extension.1 _ h]
    have hl := Real.log_le_sub_one_of_pos hpos
    have hsq : 2 * F.det ≤ a ^ 2 + b ^ 2 + c ^ 2 + e ^ 2 := by rw [hdet]; nlinarith [sq_nonneg (a - e), sq_nonneg (b + c)]
    constructor
    · push_cast; linarith
    · intro heq
      push_cast at heq
      have h1 : F.det = 1 := by
        by_contra hne
        have := Real.log_lt_sub_one_of_pos hpos hne
        linarith
      have hlog : Real.log F.det = 0 := by rw [h1, Real.log_one]
      rw [hlog] at heq
      have hs : (a - e) ^ 2 + (b + c) ^ 2 = 0 := by nlinarith
      have h2 : a - e = 0 := by nlinarith [sq_nonneg (a - e), sq_nonneg (b + c)]
      have h3 : b + c = 0 := by nlinarith [sq_nonneg (a - e), sq_nonneg (b + c)]
      refine ⟨?_, h1⟩
      rw [hdet] at h1
      have h2' : e = a := by linarith
      have h3' : c = -b := by linarith
      ext i j
      fin_cases i <;> fin_cases j <;> simp [Matrix.mul_apply, Fin.sum_univ_two, ← ha, ← hb, ← hc, ← he, h2', h3'] <;> subst h2' <;> subst h3' <;>
        nlinarith
  · have hlow := safeLnJ_low (not_lt.mp h)
    constructor
    · push_cast; nlinarith [sq_nonneg a, sq_nonneg b, sq_nonneg c, sq_nonneg e]
    · intro heq
      exfalso
      push_cast at heq
      nlinarith [sq_nonneg a, sq_nonneg b, sq_nonneg c, sq_nonneg e]

/-- Arithmetic and geometric mean of three numbers. -/
theorem am_gm_three {x y z : ℝ} (hx : 0 ≤ x) (hy : 0 ≤ y) (hz : 0 ≤ z) : 27 * (x * y * z) ≤ (x + y + z) ^ 3 := by
  nlinarith [mul_nonneg hx (sq_nonneg (y - z)), mul_nonneg hy (sq_nonneg (x - z)), mul_nonneg hz (sq_nonneg (x - y)),
    mul_nonneg hx (sq_nonneg (x - y)), mul_nonneg hx (sq_nonneg (x - z)), mul_nonneg hy (sq_nonneg (y - x)), mul_nonneg hy (sq_nonneg (y - z)),
    mul_nonneg hz (sq_nonneg (z - x)), mul_nonneg hz (sq_nonneg (z - y))]

theorem am_gm_three_eq {x y z : ℝ} (hx : 0 ≤ x) (hy : 0 ≤ y) (hz : 0 ≤ z) (hs : x + y + z = 3) (hp : 1 ≤ x * y * z) :
    x = 1 ∧ y = 1 ∧ z = 1 := by
  have h1 : (x + y + z) ^ 3 - 27 * (x * y * z) ≤ 0 := by rw [hs]; linarith
  have hxp : 0 < x := by
    rcases eq_or_lt_of_le hx with h | h
    · rw [← h] at hp; norm_num at hp
    · exact h
  have hyp : 0 < y := by
    rcases eq_or_lt_of_le hy with h | h
    · rw [← h] at hp; norm_num at hp
    · exact h
  have hzp : 0 < z := by
    rcases eq_or_lt_of_le hz with h | h
    · rw [← h] at hp; norm_num at hp
    · exact h
  have key : (x + y + z) * ((x - y) ^ 2 + (y - z) ^ 2 + (z - x) ^ 2) / 2 + 3 * (x * (y - z) ^ 2 + y * (x - z) ^ 2 + z * (x - y) ^ 2) =
      (x + y + z) ^ 3 - 27 * (x * y * z) := by ring
  have hxy : (x - y) ^ 2 = 0 := by
    nlinarith [sq_nonneg (x - y), sq_nonneg (y - z), sq_nonneg (z - x), mul_nonneg hx (sq_nonneg (y - z)), mul_nonneg hy (sq_nonneg (x - z)),
      mul_nonneg hz (sq_nonneg (x - y))]
  have hyz : (y - z) ^ 2 = 0 := by
    nlinarith [sq_nonneg (x - y), sq_nonneg (y - z), sq_nonneg (z - x), mul_nonneg hx (sq_nonneg (y - z)), mul_nonneg hy (sq_nonneg (x - z)),
      mul_nonneg hz (sq_nonneg (x - y))]
  have e1 : x = y := by have := pow_eq_zero_iff (two_ne_zero) |>.mp hxy; linarith
  have e2 : y = z := by have := pow_eq_zero_iff (two_ne_zero) |>.mp hyz; linarith
  refine ⟨?_, ?_, ?_⟩ <;> linarith

set_option maxHeartbeats 1000000 in
theorem logBound_three : LogBound 3 := by
  intro F
  obtain ⟨A, hA⟩ : ∃ A, A = F 0 0 ^ 2 + F 0 1 ^ 2 + F 0 2 ^ 2 := ⟨_, rfl⟩
  obtain ⟨B, hB⟩ : ∃ B, B = F 1 0 ^ 2 + F 1 1 ^ 2 + F 1 2 ^ 2 := ⟨_, rfl⟩
  obtain ⟨C, hC⟩ : ∃ C, C = F 2 0 ^ 2 + F 2 1 ^ 2 + F 2 2 ^ 2 := ⟨_, rfl⟩
  obtain ⟨x, hx⟩ : ∃ x, x = F 1 0 * F 2 0 + F 1 1 * F 2 1 + F 1 2 * F 2 2 := ⟨_, rfl⟩
  obtain ⟨y, hy⟩ : ∃ y, y = F 0 0 * F 2 0 + F 0 1 * F 2 1 + F 0 2 * F 2 2 := ⟨_, rfl⟩
  obtain ⟨z, hz⟩ : ∃ z, z = F 0 0 * F 1 0 + F 0 1 * F 1 1 + F 0 2 * F 1 2 := ⟨_, rfl⟩
  have htr : (F.transpose * F).trace = A + B + C := by
    rw [trC_eq]; simp [Fin.sum_univ_three, hA, hB, hC]
  have hA0 : 0 ≤ A := by rw [hA]; positivity
  have hB0 : 0 ≤ B := by rw [hB]; positivity
  have hC0 : 0 ≤ C := by rw [hC]; positivity
  have hgram : F.det ^ 2 = A * B * C + 2 * x * y * z - A * x ^ 2 - B * y ^ 2 - C * z ^ 2 := by
    rw [Matrix.det_fin_three, hA, hB, hC, hx, hy, hz]
    ring
  have hcross : F.det ^ 2 ≤ A * (B * C - x ^ 2) := by
    have : A * (B * C - x ^ 2) - F.det ^ 2 = B * y ^ 2 + C * z ^ 2 - 2 * x * y * z := by rw [hgram]; ring
    have hq : 0 ≤ B * y ^ 2 + C * z ^ 2 - 2 * x * y * z := by
      have : B * y ^ 2 + C * z ^ 2 - 2 * x * y * z = (y * F 1 0 - z * F 2 0) ^ 2 + (y * F 1 1 - z * F 2 1) ^ 2 + (y * F 1 2 - z * F 2 2) ^ 2 := by
        rw [hB, hC, hx]; ring
      rw [this]; positivity
    linarith
  have hhad : F.det ^ 2 ≤ A * B * C := by nlinarith [mul_nonneg hA0 (sq_nonneg x)]
  rw [htr]
  push_cast
  by_cases h : F.det > tmcJmin
  · have hpos : 0 < F.det := lt_trans jmin_pos h
    rw [C95_log_extension.1 _ h]
    have hag := am_gm_three hA0 hB0 hC0
    have hS : 0 < (A + B + C) / 3 := by
      by_contra hn
      have h0 : A + B + C = 0 := by linarith
      rw [h0] at hag
      have : 0 < F.det ^ 2 := by positivity
      nlinarith
    have hlog : 2 * Real.log F.det ≤ 3 * Real.log ((A + B + C) / 3) := by
      have h1 : Real.log (F.det ^ 2) ≤ Real.log (((A + B + C) / 3) ^ 3) := by
        apply Real.log_le_log (by positivity)
        have : ((A + B + C) / 3) ^ 3 = (A + B + C) ^ 3 / 27 := by ring
        rw [this]
        linarith
      rw [Real.log_pow, Real.log_pow] at h1
      exact_mod_cast h1
    have hl := Real.log_le_sub_one_of_pos hS
    constructor
    · linarith
    · intro heq
      have hone : (A + B + C) / 3 = 1 := by
        by_contra hne
        have := Real.log_lt_sub_one_of_pos hS hne
        linarith
      have hsum : A + B + C = 3 := by linarith
      have hd0 : Real.log F.det = 0 := by rw [hsum] at heq; linarith
      have hd1 : F.det = 1 := by
        rcases Real.log_eq_zero.mp hd0 with h | h | h <;> linarith
      have hprod : 1 ≤ A * B * C := by rw [hd1] at hhad; linarith
      obtain ⟨e1, e2, e3⟩ := am_gm_three_eq hA0 hB0 hC0 hsum hprod
      rw [hd1, e1, e2, e3] at hgram
      rw [hd1, e1, e2, e3] at hcross
      have hx0 : x = 0 := pow_eq_zero_iff two_ne_zero |>.mp (le_antisymm (by linarith) (sq_nonneg x))
      rw [hx0] at hgram
      have hyz : y ^ 2 + z ^ 2 = 0 := by linarith
      have hy0 : y = 0 := pow_eq_zero_iff two_ne_zero |>.mp (by linarith [sq_nonneg y, sq_nonneg z])
      have hz0 : z = 0 := pow_eq_zero_iff two_ne_zero |>.mp (by linarith [sq_nonneg y, sq_nonneg z])
      refine ⟨?_, hd1⟩
      rw [e1] at hA
      rw [e2] at hB
      rw [e3] at hC
      rw [hx0] at hx
      rw [hy0] at hy
      rw [hz0] at hz
      clear hgram hcross hhad hag hlog hl heq hone hsum hd0 hprod hyz htr h hpos hS hd1
      ext i j
      rw [Matrix.mul_apply, Fin.sum_univ_three]
      simp only [Matrix.transpose_apply]
      fin_cases i <;> fin_cases j <;> simp <;> linarith
  · have hlow := safeLnJ_low (not_lt.mp h)
    constructor
    · linarith
    · intro heq
      exfalso
      linarith

theorem rotation_transpose {d : ℕ} {F : Matrix (Fin d) (Fin d) ℝ} (h : IsRotation F) : F.transpose * F = 1 :=
  mul_eq_one_comm.mp h.1

theorem tmcPsi_eq {d : ℕ} (plane : Bool) (F : Matrix (Fin d) (Fin d) ℝ) (mu lmbda : ℝ) :
    tmcPsi plane (F - 1) mu lmbda = mu / 2 * ((F.transpose * F).trace + if plane then 1 else 0) - mu * safeLnJ F.det +
      lmbda / 2 * safeLnJ F.det ^ 2 := by
  unfold tmcPsi
  simp only [sub_add_cancel]
  cases plane <;> simp

/-- **C95.** The energy at rest, objectivity and stability: a superposed rotation does not change the energy; no deformation, inverted or
not, has less energy than the rest state; and (for a positive shear modulus) exactly the rotations have as little. -/
theorem C95_energy_minimal_at_rest {d : ℕ} (hd : d = 2 ∨ d = 3) (plane : Bool) (F Q : Matrix (Fin d) (Fin d) ℝ) (mu lmbda : ℝ)
    (hmu : 0 < mu) (hl : 0 ≤ lmbda) :
    (IsRotation Q → tmcPsi plane (Q * F - 1) mu lmbda = tmcPsi plane (F - 1) mu lmbda) ∧
    tmcPsi plane (0 : Matrix (Fin d) (Fin d) ℝ) mu lmbda = mu / 2 * (d + if plane then 1 else 0) ∧
    tmcPsi plane (0 : Matrix (Fin d) (Fin d) ℝ) mu lmbda ≤ tmcPsi plane (F - 1) mu lmbda ∧
    (tmcPsi plane (F - 1) mu lmbda = tmcPsi plane (0 : Matrix (Fin d) (Fin d) ℝ) mu lmbda ↔ IsRotation F) := by
  have hb : LogBound d := by rcases hd with rfl | rfl; exacts [logBound_two, logBound_three]
  have h0 : tmcPsi plane (0 : Matrix (Fin d) (Fin d) ℝ) mu lmbda = mu / 2 * (d + if plane then 1 else 0) := by
    have := tmcPsi_eq plane (1 : Matrix (Fin d) (Fin d) ℝ) mu lmbda
    rw [sub_self] at this
    rw [this]
    simp [safeLnJ_one]
  refine ⟨?_, h0, ?_, ?_⟩
  · intro hQ
    rw [tmcPsi_eq, tmcPsi_eq, Matrix.det_mul, hQ.2, one_mul, Matrix.transpose_mul, Matrix.mul_assoc, ← Matrix.mul_assoc Q.transpose,
      rotation_transpose hQ, Matrix.one_mul]
  · rw [h0, tmcPsi_eq]
    have := (hb F).1
    nlinarith [mul_nonneg hl (sq_nonneg (safeLnJ F.det))]
  · rw [h0, tmcPsi_eq]
    constructor
    · intro heq
      have := (hb F).1
      apply (hb F).2
      nlinarith [mul_nonneg hl (sq_nonneg (safeLnJ F.det))]
    · intro hr
      rw [rotation_transpose hr, hr.2, safeLnJ_one]
      simp

theorem exRotation : IsRotation (!![0, -1; 1, 0] : Matrix (Fin 2) (Fin 2) ℝ) := by
  constructor
  · ext i j
    fin_cases i <;> fin_cases j <;> simp [Matrix.mul_apply, Fin.sum_univ_two]
  · simp [Matrix.det_fin_two]

/-- **C95.** No stress at rest: the energy is stationary at zero displacement gradient. The energy is proportional to the moduli, and the
plane strain flag adds a constant, so that it changes neither stress nor stiffness. -/
theorem C95_energy_density {d : ℕ} (plane : Bool) (H G : Matrix (Fin d) (Fin d) ℝ) (mu lmbda g : ℝ) :
    HasDerivAt (fun t : ℝ => tmcPsi plane (t • H) mu lmbda) 0 0 ∧
    tmcPsi plane G (g * mu) (g * lmbda) = g * tmcPsi plane G mu lmbda ∧
    tmcPsi true G mu lmbda = tmcPsi false G mu lmbda + mu / 2 ∧
    ((G + 1).det > 1 / 10000 → tmcPsi plane G mu lmbda = mu / 2 * (((G + 1).transpose * (G + 1)).trace + if plane then 1 else 0) -
      mu * Real.log (G + 1).det + lmbda / 2 * Real.log (G + 1).det ^ 2) := by
  have hG : ∀ pl m l, tmcPsi pl G m l = m / 2 * (((G + 1).transpose * (G + 1)).trace + if pl then 1 else 0) - m * safeLnJ (G + 1).det +
      l / 2 * safeLnJ (G + 1).det ^ 2 := by
    intro pl m l
    have := tmcPsi_eq pl (G + 1) m l
    rwa [add_sub_cancel_right] at this
  refine ⟨?_, ?_, ?_, ?_⟩
  · have hdet : HasDerivAt (fun t : ℝ => (t • H + 1).det) H.trace 0 := by
      have e : (fun t : ℝ => (t • H + 1).det) = fun t => 1 + H.trace * t +
          (Matrix.det (1 + (Polynomial.X : Polynomial ℝ) • H.map Polynomial.C)).divX.divX.eval t * t ^ 2 := by
        funext t
        rw [add_comm, Matrix.det_one_add_smul]
      rw [e]
      generalize (Matrix.det (1 + (Polynomial.X : Polynomial ℝ) • H.map Polynomial.C)).divX.divX = p
      refine ((((hasDerivAt_id (0 : ℝ)).const_mul H.trace).const_add 1).add ((p.hasDerivAt 0).mul ((hasDerivAt_id (0 : ℝ)).pow 2))).congr_deriv ?_
      simp
    have hln : HasDerivAt (fun t : ℝ => safeLnJ (t • H + 1).det) H.trace 0 := by
      have h1 : ((0 : ℝ) • H + 1).det = 1 := by simp
      have hs : HasDerivAt safeLnJ 1 ((0 : ℝ) • H + 1).det := by
        rw [h1]
        have := C95_log_extension.2.1 1
        rwa [lnSlope, if_pos (by norm_num [tmcJmin]), div_one] at this
      have := hs.comp (0 : ℝ) hdet
      rwa [one_mul] at this
    have htr : HasDerivAt (fun t : ℝ => ((t • H + 1).transpose * (t • H + 1)).trace) (2 * H.trace) 0 := by
      simp only [trC_eq]
      have : ∀ i j, HasDerivAt (fun t : ℝ => (t • H + 1) i j ^ 2) (2 * (1 : Matrix (Fin d) (Fin d) ℝ) i j * H i j) 0 := by
        intro i j
        simp only [Matrix.add_apply, Matrix.smul_apply, smul_eq_mul]
        have h1 : HasDerivAt (fun t : ℝ => t * H i j + (1 : Matrix (Fin d) (Fin d) ℝ) i j) (H i j) 0 := by
          simpa using ((hasDerivAt_id (0 : ℝ)).mul_const (H i j)).add_const ((1 : Matrix (Fin d) (Fin d) ℝ) i j)
        refine (h1.pow 2).congr_deriv ?_
        simp
      refine (HasDerivAt.fun_sum fun i _ => HasDerivAt.fun_sum fun j _ => this i j).congr_deriv ?_
      simp [Matrix.one_apply, Matrix.trace, Finset.mul_sum]
    have hfun : (fun t : ℝ => tmcPsi plane (t • H) mu lmbda) = fun t : ℝ => mu / 2 * (((t • H + 1).transpose * (t • H + 1)).trace +
        if plane then 1 else 0) - mu * safeLnJ (t • H + 1).det + lmbda / 2 * safeLnJ (t • H + 1).det ^ 2 := by
      funext t
      have := tmcPsi_eq plane (t • H + 1) mu lmbda
      rwa [add_sub_cancel_right] at this
    rw [hfun]
    refine ((((htr.add_const _).const_mul (mu / 2)).sub (hln.const_mul mu)).add ((hln.pow 2).const_mul (lmbda / 2))).congr_deriv ?_
    simp [safeLnJ_one]
    ring
  · rw [hG, hG]; ring
  · rw [hG, hG]; simp; ring
  · intro h
    rw [hG, C95_log_extension.1 _ h]

/-! ### The regularisation of the medium -/

/-- The integrand of the documented energy at one point: `H:::H - (1/d) L·L`, for second derivatives `H` (component, direction, direction). -/
noncomputable def huHuLuLu {d : ℕ} (H : Fin d → Fin d → Fin d → ℝ) : ℝ :=
  (∑ v, ∑ k, ∑ l, H v k l ^ 2) - 1 / d * ∑ v, (∑ k, H v k k) ^ 2

/-- The documented regularisation energy of one cell, `kr_coeff ∫ (H:::H - (1/d) L·L)`, if the cell belongs to the medium. -/
noncomputable def regEnergy {d n m : ℕ} (kr : ℝ) (hess : Fin m → Fin n → Fin d → Fin d → ℝ) (jxw : Fin m → ℝ) (isMedium : ℝ)
    (u : Fin n → Fin d → ℝ) : ℝ :=
  kr * isMedium * ∑ q, huHuLuLu (fun v k l => ∑ a, u a v * hess q a k l) * jxw q

/-- The bilinear form of `huHuLuLu`. -/
noncomputable def huHuForm {d : ℕ} (H G : Fin d → Fin d → Fin d → ℝ) : ℝ :=
  (∑ v, ∑ k, ∑ l, H v k l * G v k l) - 1 / d * ∑ v, (∑ k, H v k k) * ∑ k, G v k k

theorem huHu_self {d : ℕ} (H : Fin d → Fin d → Fin d → ℝ) : huHuForm H H = huHuLuLu H := by
  simp only [huHuForm, huHuLuLu, pow_two]

theorem reg_work {d n m : ℕ} (kr : ℝ) (hess : Fin m → Fin n → Fin d → Fin d → ℝ) (jxw : Fin m → ℝ) (med : ℝ) (u w : Fin n → Fin d → ℝ) :
    ∑ a, ∑ v, tmcKernel kr hess jxw med u a v * w a v =
      kr * med * ∑ q, huHuForm (tmcHess hess u q) (tmcHess hess w q) * jxw q := by
  obtain ⟨T, hT⟩ : ∃ T : Fin m → Fin n → Fin d → ℝ, T = fun q a v => (∑ k, ∑ l, tmcHess hess u q v k l * hess q a k l) -
      (∑ k, tmcHess hess u q v k k) * (∑ k, hess q a k k) / d := ⟨_, rfl⟩
  have hker : ∀ a v, tmcKernel kr hess jxw med u a v = kr * med * ∑ q, T q a v * jxw q := by
    intro a v
    rw [hT]
    rfl
  have e : ∀ q, huHuForm (tmcHess hess u q) (tmcHess hess w q) = ∑ a, ∑ v, T q a v * w a v := by
    intro q
    rw [hT]
    unfold huHuForm
    conv_rhs => rw [Finset.sum_comm]
    simp only [sub_mul, Finset.sum_sub_distrib]
    congr 1
    · refine Finset.sum_congr rfl fun v _ => ?_
      have hw : ∀ k l, tmcHess hess w q v k l = ∑ a, w a v * hess q a k l := fun k l => rfl
      simp only [hw, Finset.mul_sum, Finset.sum_mul]
      calc ∑ k, ∑ l, ∑ a, tmcHess hess u q v k l * (w a v * hess q a k l)
          = ∑ k, ∑ a, ∑ l, tmcHess hess u q v k l * (w a v * hess q a k l) := Finset.sum_congr rfl fun k _ => Finset.sum_comm
        _ = ∑ a, ∑ k, ∑ l, tmcHess hess u q v k l * (w a v * hess q a k l) := Finset.sum_comm
        _ = _ := Finset.sum_congr rfl fun a _ => Finset.sum_congr rfl fun k _ => Finset.sum_congr rfl fun l _ => by ring
    · rw [Finset.mul_sum]
      refine Finset.sum_congr rfl fun v _ => ?_
      have hw : ∑ k, tmcHess hess w q v k k = ∑ a, w a v * ∑ k, hess q a k k := by
        simp only [tmcHess, Finset.mul_sum]
        exact Finset.sum_comm
      rw [hw, Finset.mul_sum, Finset.mul_sum]
      exact Finset.sum_congr rfl fun a _ => by ring
  simp only [e, hker]
  clear hT hker e
  simp only [Finset.mul_sum, Finset.sum_mul]
  calc ∑ a, ∑ v, ∑ q, kr * med * (T q a v * jxw q) * w a v
      = ∑ a, ∑ q, ∑ v, kr * med * (T q a v * jxw q) * w a v := Finset.sum_congr rfl fun a _ => Finset.sum_comm
    _ = ∑ q, ∑ a, ∑ v, kr * med * (T q a v * jxw q) * w a v := Finset.sum_comm
    _ = _ := Finset.sum_congr rfl fun q _ => Finset.sum_congr rfl fun a _ => Finset.sum_congr rfl fun v _ => by ring

theorem huHu_comm {d : ℕ} (H G : Fin d → Fin d → Fin d → ℝ) : huHuForm H G = huHuForm G H := by
  unfold huHuForm
  congr 1
  · exact Finset.sum_congr rfl fun v _ => Finset.sum_congr rfl fun k _ => Finset.sum_congr rfl fun l _ => mul_comm _ _
  · congr 1
    exact Finset.sum_congr rfl fun v _ => mul_comm _ _

theorem huHu_nonneg {d : ℕ} (H : Fin d → Fin d → Fin d → ℝ) : 0 ≤ huHuLuLu H := by
  unfold huHuLuLu
  rw [Finset.mul_sum, ← Finset.sum_sub_distrib]
  apply Finset.sum_nonneg
  intro v _
  rcases Nat.eq_zero_or_pos d with hd | hd
  · subst hd; simp
  have hd' : (0 : ℝ) < d := by exact_mod_cast hd
  have h1 : (∑ k, H v k k) ^ 2 ≤ d * ∑ k, H v k k ^ 2 := by
    have := sq_sum_le_card_mul_sum_sq (s := (Finset.univ : Finset (Fin d))) (f := fun k => H v k k)
    simpa using this
  have h2 : ∑ k, H v k k ^ 2 ≤ ∑ k, ∑ l, H v k l ^ 2 :=
    Finset.sum_le_sum fun k _ => Finset.single_le_sum (f := fun l => H v k l ^ 2) (fun l _ => sq_nonneg _) (Finset.mem_univ k)
  have h3 : 1 / (d : ℝ) * (∑ k, H v k k) ^ 2 ≤ ∑ k, H v k k ^ 2 := by
    rw [one_div, inv_mul_le_iff₀ hd']
    exact h1
  linarith

theorem huHu_line {d : ℕ} (H G : Fin d → Fin d → Fin d → ℝ) (t : ℝ) :
    huHuLuLu (fun v k l => H v k l + t * G v k l) = huHuLuLu H + 2 * t * huHuForm H G + t ^ 2 * huHuLuLu G := by
  unfold huHuLuLu huHuForm
  have e1 : ∑ v, ∑ k, ∑ l, (H v k l + t * G v k l) ^ 2 = (∑ v, ∑ k, ∑ l, H v k l ^ 2) + 2 * t * (∑ v, ∑ k, ∑ l, H v k l * G v k l) +
      t ^ 2 * ∑ v, ∑ k, ∑ l, G v k l ^ 2 := by
    simp only [Finset.mul_sum, ← Finset.sum_add_distrib]
    exact Finset.sum_congr rfl fun v _ => Finset.sum_congr rfl fun k _ => Finset.sum_congr rfl fun l _ => by ring
  have e2 : ∑ v, (∑ k, (H v k k + t * G v k k)) ^ 2 = (∑ v, (∑ k, H v k k) ^ 2) + 2 * t * (∑ v, (∑ k, H v k k) * ∑ k, G v k k) +
      t ^ 2 * ∑ v, (∑ k, G v k k) ^ 2 := by
    have : ∀ v, ∑ k, (H v k k + t * G v k k) = (∑ k, H v k k) + t * ∑ k, G v k k := fun v => by
      rw [Finset.sum_add_distrib, Finset.mul_sum]
    simp only [this]
    rw [Finset.mul_sum, Finset.mul_sum, ← Finset.sum_add_distrib, ← Finset.sum_add_distrib]
    exact Finset.sum_congr rfl fun v _ => by ring
  rw [e1, e2]
  ring

theorem hess_line {d n m : ℕ} (hess : Fin m → Fin n → Fin d → Fin d → ℝ) (u w : Fin n → Fin d → ℝ) (t : ℝ) (q : Fin m) (v k l : Fin d) :
    ∑ a, (u a v + t * w a v) * hess q a k l = tmcHess hess u q v k l + t * tmcHess hess w q v k l := by
  unfold tmcHess
  rw [Finset.mul_sum, ← Finset.sum_add_distrib]
  exact Finset.sum_congr rfl fun a _ => by ring

/-- **C95 (proved part).** The regularisation forces of a cell are the gradient of half the documented energy; the energy is convex and not
negative for non-negative weights; body cells get no regularisation; the tangent is symmetric. -/
theorem C95_regularisation_partial {d n m : ℕ} (kr : ℝ) (hess : Fin m → Fin n → Fin d → Fin d → ℝ) (jxw : Fin m → ℝ) (med : ℝ)
    (u w : Fin n → Fin d → ℝ) :
    HasDerivAt (fun t => 1 / 2 * regEnergy kr hess jxw med fun a v => u a v + t * w a v)
      (∑ a, ∑ v, tmcKernel kr hess jxw med u a v * w a v) 0 ∧
    (0 ≤ kr → 0 ≤ med → (∀ q, 0 ≤ jxw q) → 0 ≤ ∑ a, ∑ v, tmcKernel kr hess jxw med u a v * u a v ∧ 0 ≤ regEnergy kr hess jxw med u) ∧
    tmcKernel kr hess jxw 0 u = 0 ∧
    ∑ a, ∑ v, tmcKernel kr hess jxw med u a v * w a v = ∑ a, ∑ v, tmcKernel kr hess jxw med w a v * u a v := by
  have hE : ∀ t, regEnergy kr hess jxw med (fun a v => u a v + t * w a v) = kr * med * ∑ q, (huHuLuLu (tmcHess hess u q) +
      2 * t * huHuForm (tmcHess hess u q) (tmcHess hess w q) + t ^ 2 * huHuLuLu (tmcHess hess w q)) * jxw q := by
    intro t
    unfold regEnergy
    simp only [hess_line, huHu_line]
  refine ⟨?_, ?_, ?_, ?_⟩
  · simp only [hE]
    rw [reg_work]
    have hq : ∀ q, HasDerivAt (fun t => (huHuLuLu (tmcHess hess u q) + 2 * t * huHuForm (tmcHess hess u q) (tmcHess hess w q) +
        t ^ 2 * huHuLuLu (tmcHess hess w q)) * jxw q) (2 * huHuForm (tmcHess hess u q) (tmcHess hess w q) * jxw q) 0 := by
      intro q
      have h1 : HasDerivAt (fun t : ℝ => 2 * t * huHuForm (tmcHess hess u q) (tmcHess hess w q))
          (2 * huHuForm (tmcHess hess u q) (tmcHess hess w q)) 0 := by
        simpa using ((hasDerivAt_id (0 : ℝ)).const_mul 2).mul_const (huHuForm (tmcHess hess u q) (tmcHess hess w q))
      have h2 : HasDerivAt (fun t : ℝ => t ^ 2 * huHuLuLu (tmcHess hess w q)) 0 0 := by
        simpa using ((hasDerivAt_id (0 : ℝ)).pow 2).mul_const (huHuLuLu (tmcHess hess w q))
      refine (((h1.const_add _).add h2).mul_const (jxw q)).congr_deriv ?_
      ring
    refine (((HasDerivAt.fun_sum fun q _ => hq q).const_mul (kr * med)).const_mul (1 / 2)).congr_deriv ?_
    simp only [Finset.mul_sum]
    exact Finset.sum_congr rfl fun q _ => by ring
  · intro hkr hmed hj
    constructor
    · rw [reg_work]
      apply mul_nonneg (mul_nonneg hkr hmed)
      apply Finset.sum_nonneg
      intro q _
      rw [huHu_self]
      exact mul_nonneg (huHu_nonneg _) (hj q)
    · unfold regEnergy
      apply mul_nonneg (mul_nonneg hkr hmed)
      exact Finset.sum_nonneg fun q _ => mul_nonneg (huHu_nonneg _) (hj q)
  · funext a v
    simp [tmcKernel]
  · rw [reg_work, reg_work]
    congr 1
    exact Finset.sum_congr rfl fun q _ => by rw [huHu_comm]

/-- One node, one point, one direction of curvature, weight one. -/
def exHess : Fin 1 → Fin 1 → Fin 2 → Fin 2 → ℝ := fun _ _ k l => if k = 0 ∧ l = 1 then 1 else 0

/-- **C95, violated.** The regularisation forces are not the gradient of the documented energy `kr λ L² ∫ (H:::H - (1/d) L·L)`: they are half
of it. -/
theorem C95_documented_energy_violated : ¬ ∀ (u w : Fin 1 → Fin 2 → ℝ),
    HasDerivAt (fun t => regEnergy 1 exHess (fun _ => 1) 1 fun a v => u a v + t * w a v)
      (∑ a, ∑ v, tmcKernel 1 exHess (fun _ => 1) 1 u a v * w a v) 0 := by
  intro h
  have h1 := h (fun _ v => if v = 0 then 1 else 0) (fun _ v => if v = 0 then 1 else 0)
  have h2 := ((C95_regularisation_partial 1 exHess (fun _ => 1) 1 (fun _ v => if v = 0 then 1 else 0)
    (fun _ v => if v = 0 then 1 else 0)).1.const_mul 2)
  have e := h1.unique (h2.congr_of_eventuallyEq (Filter.Eventually.of_forall fun t => by ring))
  simp [tmcKernel, tmcHess, exHess, Fin.sum_univ_two] at e

/-- **C95 (proved part).** On cells that are affine images of the reference cell, displacements affine in the position carry no
regularisation force, for every element type and quadrature rule: the medium does not resist uniform stretch or rigid motion through it. -/
theorem C95_affine_motion_free_partial {m : ℕ} (e : EleType) (pts : Fin m → ℝ × ℝ × ℝ) (w : Fin m → ℝ)
    (X : Fin e.reOrder.length → Fin e.dim → ℝ) (B : Matrix (Fin e.dim) (Fin e.dim) ℝ) (c : Fin e.dim → ℝ)
    (hX : AffineCell (refNodes ℝ e) X B c) (A : Fin e.dim → Fin e.dim → ℝ) (b : Fin e.dim → ℝ) (kr med : ℝ) :
    tmcKernel kr (fun q => (e.refElem e.dim pts w).physHess X q) ((e.refElem e.dim pts w).JxW X) med (affineValues A b X) = 0 := by
  have h : ∀ q v k l, tmcHess (fun q => (e.refElem e.dim pts w).physHess X q) (affineValues A b X) q v k l = 0 := fun q v k l =>
    C80_affine_field_partial e pts w X B c hX A b q v k l
  funext a v
  simp [tmcKernel, h]

/-- **C95.** `ThirdMediumContact.create`: the medium has the body's moduli times `gamma0`, the body its own; the regularisation coefficient is
`kr λ L²`; and in three dimensions the plane strain flag is ignored. -/
theorem C95_create (pointsDim : ℕ) (isMedium : List ℝ) (mu lmbda gamma0 kr : ℝ) (dim : Option ℕ)
    (refLength : ℝ) (plane : Bool) :
    let r := tmcCreate pointsDim isMedium mu lmbda gamma0 kr dim refLength plane
    r.krCoeff = kr * lmbda * refLength ^ 2 ∧ (dim.getD pointsDim = 3 → r.planeStrain = false) ∧
    (dim.getD pointsDim = 2 → r.planeStrain = plane) ∧ r.mu.length = isMedium.length ∧ r.lmbda.length = isMedium.length ∧
    ∀ k (hk : k < isMedium.length), (isMedium[k] = 1 → r.mu.getD k 0 = gamma0 * mu ∧ r.lmbda.getD k 0 = gamma0 * lmbda) ∧
      (isMedium[k] = 0 → r.mu.getD k 0 = mu ∧ r.lmbda.getD k 0 = lmbda) := by
  refine ⟨rfl, ?_, ?_, by simp [tmcCreate], by simp [tmcCreate], ?_⟩
  · intro h
    simp [tmcCreate, h]
  · intro h
    simp [tmcCreate, h]
  · intro k hk
    constructor
    · intro h
      simp only [tmcCreate]
      rw [List.getD_eq_getElem _ _ (by simpa using hk), List.getD_eq_getElem _ _ (by simpa using hk)]
      simp [h, mul_comm]
    · intro h
      simp only [tmcCreate]
      rw [List.getD_eq_getElem _ _ (by simpa using hk), List.getD_eq_getElem _ _ (by simpa using hk)]
      simp [h]

end Verif.Props
