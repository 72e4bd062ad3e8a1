import Verif.Props.Newton
import Mathlib.Analysis.Calculus.MeanValue
import Mathlib.Analysis.Calculus.ContDiff.RCLike
import Mathlib.Analysis.Calculus.ContDiff.Comp
import Mathlib.Analysis.Calculus.ContDiff.Operations
import Mathlib.Analysis.Calculus.Deriv.Pow
import Mathlib.Analysis.Normed.Operator.BoundedLinearMaps
import Mathlib.Tactic.Positivity
import Mathlib.Tactic.FieldSimp
import Mathlib.Tactic.Module

/-!
# C151: Newton's method with line search converges quadratically near a regular solution
-/

namespace Verif.Props
open Verif.Model.Newton Filter Topology

section
variable {V W : Type*} [NormedAddCommGroup V] [NormedSpace ℝ V] [NormedAddCommGroup W] [NormedSpace ℝ W]

/-- The loops run on real vectors with the residual `F` and the direction `dir`, in exact arithmetic. -/
def exactEnv (F : V → W) (dir : V → V) : NewtonEnv ℝ V W where
  resf := F
  norm w := some ‖w‖
  selfDot w := some (‖w‖ * ‖w‖)
  hasNaN _ := false
  axpy x a d := x + a • d
  direction := dir

/-- Near a regular solution the derivative is uniformly invertible, the residual measures the error from both
sides, and the residual is its linearisation up to a quadratic term. -/
theorem regular_near (F : V → W) (x : V) (A : V ≃L[ℝ] W) (hF : ContDiffAt ℝ 2 F x)
    (hA : fderiv ℝ F x = A) (h0 : F x = 0) :
    ∃ r G Λ : ℝ, 0 < r ∧ 0 ≤ G ∧ 0 < Λ ∧ (∀ z, ‖z - x‖ ≤ r →
      (∀ v, ‖v‖ ≤ Λ * ‖fderiv ℝ F z v‖) ∧ ‖F z‖ ≤ Λ * ‖z - x‖ ∧ ‖z - x‖ ≤ Λ * ‖F z‖) ∧
      ∀ z z', ‖z - x‖ ≤ r → ‖z' - x‖ ≤ r → ‖F z' - F z - fderiv ℝ F z (z' - z)‖ ≤ G * ‖z' - z‖ ^ 2 := by
  -- the derivative is Lipschitz near the solution
  obtain ⟨γ, t, ht, hγ⟩ := (hF.fderiv_right (m := 1) (by norm_num)).exists_lipschitzOnWith
  have hdiff : ∀ᶠ z in 𝓝 x, DifferentiableAt ℝ F z := by
    have := (hF.of_le (by norm_num : (1 : WithTop ℕ∞) ≤ 2)).eventually (by simp)
    exact this.mono fun z hz => hz.differentiableAt one_ne_zero
  obtain ⟨ρ, hρ, hball⟩ := Metric.eventually_nhds_iff_ball.1 (hdiff.and ht)
  set β : ℝ := ‖(A.symm : W →L[ℝ] V)‖ with hβ
  have hβ0 : 0 ≤ β := norm_nonneg _
  set Λ : ℝ := ‖(A : V →L[ℝ] W)‖ + 1 + 2 * β with hΛ
  have hAn : 0 ≤ ‖(A : V →L[ℝ] W)‖ := norm_nonneg _
  have hγ0 : (0 : ℝ) ≤ γ := γ.2
  set r : ℝ := min (ρ / 2) (1 / (2 * (γ * (β + 1) * (1 + 2 * Λ * Λ) + 1) * (1 + 1))) with hr
  have hΛ0 : 0 ≤ Λ := by positivity
  have hr0 : 0 < r := by positivity
  have hrρ : r < ρ := lt_of_le_of_lt (min_le_left _ _) (by linarith)
  have hrs : r * (γ * (β + 1) * (1 + 2 * Λ * Λ)) ≤ 1 / 4 := by
    set X : ℝ := γ * (β + 1) * (1 + 2 * Λ * Λ) with hX
    have hX0 : 0 ≤ X := by positivity
    have h1 : r ≤ 1 / (2 * (X + 1) * (1 + 1)) := min_le_right _ _
    calc r * X ≤ 1 / (2 * (X + 1) * (1 + 1)) * X := mul_le_mul_of_nonneg_right h1 hX0
      _ ≤ 1 / 4 := by
        rw [div_mul_eq_mul_div, div_le_div_iff₀ (by positivity) (by norm_num)]
        linarith
  have hin : ∀ z, ‖z - x‖ ≤ r → z ∈ Metric.ball x ρ := by
    intro z hz
    rw [Metric.mem_ball, dist_eq_norm]
    exact lt_of_le_of_lt hz hrρ
  have hx : x ∈ Metric.ball x ρ := Metric.mem_ball_self hρ
  have hlip : ∀ z z', ‖z - x‖ ≤ r → ‖z' - x‖ ≤ r → ‖fderiv ℝ F z - fderiv ℝ F z'‖ ≤ γ * ‖z - z'‖ := by
    intro z z' hz hz'
    have := hγ.dist_le_mul z (hball z (hin z hz)).2 z' (hball z' (hin z' hz')).2
    simpa [dist_eq_norm] using this
  -- mean value inequality around a linear map
  have hmv : ∀ z z' w : V, ‖z - x‖ ≤ r → ‖z' - x‖ ≤ r → ‖w - x‖ ≤ r → ∀ c, (∀ q ∈ segment ℝ z z', ‖q - w‖ ≤ c) →
      ‖F z' - F z - fderiv ℝ F w (z' - z)‖ ≤ γ * c * ‖z' - z‖ := by
    intro z z' w hz hz' hw c hc
    have hconv : ∀ q ∈ segment ℝ z z', ‖q - x‖ ≤ r := by
      intro q hq
      have h1 := (convex_closedBall x r).segment_subset (x := z) (y := z')
        (by rwa [Metric.mem_closedBall, dist_eq_norm]) (by rwa [Metric.mem_closedBall, dist_eq_norm]) hq
      rwa [Metric.mem_closedBall, dist_eq_norm] at h1
    refine Convex.norm_image_sub_le_of_norm_hasFDerivWithin_le' (𝕜 := ℝ) (f' := fderiv ℝ F)
      (s := segment ℝ z z') ?_ ?_ (convex_segment _ _) (left_mem_segment _ _ _) (right_mem_segment _ _ _)
    · intro q hq
      exact ((hball q (hin q (hconv q hq))).1.hasFDerivAt).hasFDerivWithinAt
    · intro q hq
      exact (hlip q w (hconv q hq) hw).trans (mul_le_mul_of_nonneg_left (hc q hq) hγ0)
  have hxx : ‖x - x‖ ≤ r := by simpa using hr0.le
  have hγβ : γ * r * β ≤ 1 / 4 := by
    have h1 : (1 : ℝ) ≤ 1 + 2 * Λ * Λ := by nlinarith
    have h2 : γ * r * β ≤ r * (γ * (β + 1) * (1 + 2 * Λ * Λ)) := by
      have : γ * r * β * 1 ≤ γ * r * (β + 1) * (1 + 2 * Λ * Λ) :=
        mul_le_mul (mul_le_mul_of_nonneg_left (by linarith) (by positivity)) h1 zero_le_one (by positivity)
      linarith
    linarith
  have hAinv : ∀ v : V, ‖v‖ ≤ β * ‖A v‖ := by
    intro v
    have := (A.symm : W →L[ℝ] V).le_opNorm (A v)
    simpa using this
  -- the derivative near the solution is invertible with twice the constant
  have hinv : ∀ z, ‖z - x‖ ≤ r → ∀ v, ‖v‖ ≤ 2 * β * ‖fderiv ℝ F z v‖ := by
    intro z hz v
    have h1 := hlip z x hz hxx
    rw [hA] at h1
    have h2 : ‖A v‖ ≤ ‖fderiv ℝ F z v‖ + γ * r * ‖v‖ := by
      have e : A v = fderiv ℝ F z v - (fderiv ℝ F z - (A : V →L[ℝ] W)) v := by simp
      rw [e]
      refine (norm_sub_le _ _).trans (add_le_add_right ?_ _)
      refine (ContinuousLinearMap.le_opNorm _ _).trans (mul_le_mul_of_nonneg_right ?_ (norm_nonneg _))
      exact h1.trans (mul_le_mul_of_nonneg_left hz hγ0)
    have h3 := hAinv v
    have h4 : β * ‖A v‖ ≤ β * ‖fderiv ℝ F z v‖ + (γ * r * β) * ‖v‖ := by
      have := mul_le_mul_of_nonneg_left h2 hβ0
      linarith
    have h5 : (γ * r * β) * ‖v‖ ≤ 1 / 4 * ‖v‖ := mul_le_mul_of_nonneg_right hγβ (norm_nonneg _)
    have h6 : 0 ≤ β * ‖fderiv ℝ F z v‖ := by positivity
    linarith
  have hseg : ∀ z : V, ∀ q ∈ segment ℝ x z, ‖q - x‖ ≤ ‖z - x‖ := fun z q hq => norm_sub_le_of_mem_segment hq
  have hγr : γ * r ≤ 1 := by
    have h1 : (1 : ℝ) ≤ (β + 1) * (1 + 2 * Λ * Λ) := by nlinarith [mul_nonneg hΛ0 hΛ0, mul_nonneg hβ0 (mul_nonneg hΛ0 hΛ0)]
    have h2 : γ * r * 1 ≤ γ * r * ((β + 1) * (1 + 2 * Λ * Λ)) := mul_le_mul_of_nonneg_left h1 (by positivity)
    linarith
  have hup : ∀ z, ‖z - x‖ ≤ r → ‖F z‖ ≤ (‖(A : V →L[ℝ] W)‖ + 1) * ‖z - x‖ := by
    intro z hz
    have h1 := hmv x z x hxx hz hxx r (fun q hq => (hseg z q hq).trans hz)
    rw [h0, hA, sub_zero] at h1
    have h2 := (A : V →L[ℝ] W).le_opNorm (z - x)
    have h3 := norm_add_le (F z - (A : V →L[ℝ] W) (z - x)) ((A : V →L[ℝ] W) (z - x))
    rw [sub_add_cancel] at h3
    have h4 : γ * r * ‖z - x‖ ≤ 1 * ‖z - x‖ := mul_le_mul_of_nonneg_right hγr (norm_nonneg _)
    linarith
  have hlow : ∀ z, ‖z - x‖ ≤ r → ‖z - x‖ ≤ 2 * β * ‖F z‖ := by
    intro z hz
    have h1 := hmv x z x hxx hz hxx r (fun q hq => (hseg z q hq).trans hz)
    rw [h0, hA, sub_zero] at h1
    have h2 := hAinv (z - x)
    have h3 : ‖A (z - x)‖ ≤ ‖F z‖ + γ * r * ‖z - x‖ := by
      have e : A (z - x) = F z - (F z - (A : V →L[ℝ] W) (z - x)) := by simp
      rw [e]
      exact (norm_sub_le _ _).trans (add_le_add_right h1 _)
    have h4 : β * ‖A (z - x)‖ ≤ β * ‖F z‖ + (γ * r * β) * ‖z - x‖ := by
      have := mul_le_mul_of_nonneg_left h3 hβ0
      linarith
    have h5 : (γ * r * β) * ‖z - x‖ ≤ 1 / 4 * ‖z - x‖ := mul_le_mul_of_nonneg_right hγβ (norm_nonneg _)
    have h6 : 0 ≤ β * ‖F z‖ := by positivity
    linarith
  have hΛp : 0 < Λ := by linarith
  refine ⟨r, γ, Λ, hr0, hγ0, hΛp, ?_, ?_⟩
  · intro z hz
    refine ⟨fun v => ?_, ?_, ?_⟩
    · exact (hinv z hz v).trans (mul_le_mul_of_nonneg_right (by linarith) (norm_nonneg _))
    · exact (hup z hz).trans (mul_le_mul_of_nonneg_right (by linarith) (norm_nonneg _))
    · exact (hlow z hz).trans (mul_le_mul_of_nonneg_right (by linarith) (norm_nonneg _))
  · intro z z' hz hz'
    have := hmv z z' z hz hz' hz ‖z' - z‖ (fun q hq => norm_sub_le_of_mem_segment hq)
    rwa [mul_assoc, ← sq] at this

/-- Near a regular solution: a full Newton step squares the error, halves the residual, and the residual
measures the error from both sides. -/
theorem newton_step_near (F : V → W) (x : V) (A : V ≃L[ℝ] W) (hF : ContDiffAt ℝ 2 F x)
    (hA : fderiv ℝ F x = A) (h0 : F x = 0) :
    ∃ r C Λ : ℝ, 0 < r ∧ 0 ≤ C ∧ C * r ≤ 1 / 2 ∧ 0 ≤ Λ ∧ ∀ z d, ‖z - x‖ ≤ r → fderiv ℝ F z d = -F z →
      ‖z + d - x‖ ≤ C * ‖z - x‖ ^ 2 ∧ ‖F (z + d)‖ ≤ 1 / 2 * ‖F z‖ ∧ ‖F z‖ ≤ Λ * ‖z - x‖ ∧
      ‖z - x‖ ≤ Λ * ‖F z‖ := by
  obtain ⟨r0, G, Λ, hr0, hG, hΛ, h1, h2⟩ := regular_near F x A hF hA h0
  set r := min r0 (1 / (2 * (Λ * G * (1 + Λ * Λ) + 1))) with hr
  have hrp : 0 < r := by positivity
  have hrr : r ≤ r0 := min_le_left _ _
  have hsm : Λ * G * (1 + Λ * Λ) * r ≤ 1 / 2 := by
    set X := Λ * G * (1 + Λ * Λ)
    have hX : 0 ≤ X := by positivity
    calc X * r ≤ X * (1 / (2 * (X + 1))) := mul_le_mul_of_nonneg_left (min_le_right _ _) hX
      _ ≤ 1 / 2 := by rw [mul_one_div, div_le_div_iff₀ (by positivity) (by norm_num)]; linarith
  have hCr : Λ * G * r ≤ 1 / 2 := by
    have : 0 ≤ Λ * G * r * (Λ * Λ) := by positivity
    linarith
  refine ⟨r, Λ * G, Λ, hrp, by positivity, hCr, hΛ.le, ?_⟩
  intro z d hz hd
  have hz0 := hz.trans hrr
  obtain ⟨i1, i2, i3⟩ := h1 z hz0
  have hxx : ‖x - x‖ ≤ r0 := by simpa using hr0.le
  have hquad : ‖z + d - x‖ ≤ Λ * G * ‖z - x‖ ^ 2 := by
    have e1 := h2 z x hz0 hxx
    have e : fderiv ℝ F z (z + d - x) = F x - F z - fderiv ℝ F z (x - z) := by
      rw [show z + d - x = d - (x - z) by abel, map_sub, hd, h0, zero_sub]
    have e2 := i1 (z + d - x)
    rw [e] at e2
    rw [norm_sub_rev x z] at e1
    calc _ ≤ _ := e2
      _ ≤ Λ * (G * ‖z - x‖ ^ 2) := mul_le_mul_of_nonneg_left e1 hΛ.le
      _ = _ := by ring
  have hsq : ‖z - x‖ ^ 2 ≤ r * ‖z - x‖ := by
    rw [sq]; exact mul_le_mul_of_nonneg_right hz (norm_nonneg _)
  have hhalf : ‖z + d - x‖ ≤ Λ * G * (r * ‖z - x‖) :=
    hquad.trans (mul_le_mul_of_nonneg_left hsq (by positivity))
  have hsmall : ‖z + d - x‖ ≤ r0 := by
    have : Λ * G * r * ‖z - x‖ ≤ 1 / 2 * ‖z - x‖ := mul_le_mul_of_nonneg_right hCr (norm_nonneg _)
    have := norm_nonneg (z - x)
    linarith
  refine ⟨hquad, ?_, i2, i3⟩
  obtain ⟨-, j2, -⟩ := h1 _ hsmall
  calc ‖F (z + d)‖ ≤ Λ * ‖z + d - x‖ := j2
    _ ≤ Λ * (Λ * G * (r * (Λ * ‖F z‖))) := by
      refine mul_le_mul_of_nonneg_left (hhalf.trans ?_) hΛ.le
      exact mul_le_mul_of_nonneg_left (mul_le_mul_of_nonneg_left i3 hrp.le) (by positivity)
    _ = (Λ * G * (Λ * Λ) * r) * ‖F z‖ := by ring
    _ ≤ 1 / 2 * ‖F z‖ := by
      refine mul_le_mul_of_nonneg_right ?_ (norm_nonneg _)
      have : 0 ≤ Λ * G * r := by positivity
      linarith

/-- Near a regular solution, a direction that solves the Newton equation up to the fraction `eta` of the
residual reduces the residual by any factor above `eta`. -/
theorem inexact_step_near (F : V → W) (x : V) (A : V ≃L[ℝ] W) (hF : ContDiffAt ℝ 2 F x)
    (hA : fderiv ℝ F x = A) (h0 : F x = 0) (eta q ρ : ℝ) (he : eta < q) (hq : q < 1)
    (hρ : 0 < ρ) :
    ∃ r r1 Λ : ℝ, 0 < r ∧ r ≤ r1 ∧ r1 ≤ ρ ∧ 0 < Λ ∧ Λ * Λ * r ≤ r1 ∧ ∀ z d, ‖z - x‖ ≤ r1 →
      ‖fderiv ℝ F z d + F z‖ ≤ eta * ‖F z‖ →
      ‖F (z + d)‖ ≤ q * ‖F z‖ ∧ ‖F z‖ ≤ Λ * ‖z - x‖ ∧ ‖z - x‖ ≤ Λ * ‖F z‖ ∧
      ‖z + d - x‖ ≤ Λ * ‖F (z + d)‖ := by
  obtain ⟨r0, G, Λ, hr0, hG, hΛ, h1, h2⟩ := regular_near F x A hF hA h0
  have hqe : 0 < q - eta := sub_pos.2 he
  set r1 := min ρ (min (r0 / (1 + 2 * Λ * Λ)) ((q - eta) / (4 * G * Λ * Λ * Λ + 1))) with hr1
  have hr1p : 0 < r1 := by positivity
  have hr10 : (1 + 2 * Λ * Λ) * r1 ≤ r0 := by
    have : r1 ≤ r0 / (1 + 2 * Λ * Λ) := (min_le_right _ _).trans (min_le_left _ _)
    rw [le_div_iff₀ (by positivity)] at this
    linarith
  have hr1q : 4 * G * Λ * Λ * Λ * r1 ≤ q - eta := by
    have : r1 ≤ (q - eta) / (4 * G * Λ * Λ * Λ + 1) := (min_le_right _ _).trans (min_le_right _ _)
    rw [le_div_iff₀ (by positivity)] at this
    linarith
  have hΛΛ : 0 < Λ * Λ := by positivity
  refine ⟨r1 / (1 + Λ * Λ), r1, Λ, by positivity, ?_, min_le_left _ _, hΛ, ?_, ?_⟩
  · rw [div_le_iff₀ (by positivity)]
    nlinarith
  · rw [mul_div_assoc', div_le_iff₀ (by positivity)]
    nlinarith
  intro z d hz hd
  have hzr : ‖z - x‖ ≤ r0 := by
    have : 0 ≤ 2 * Λ * Λ * r1 := by positivity
    linarith
  obtain ⟨i1, i2, i3⟩ := h1 z hzr
  have hFn := norm_nonneg (F z)
  have hdn : ‖d‖ ≤ 2 * Λ * ‖F z‖ := by
    have e1 : ‖fderiv ℝ F z d‖ ≤ 2 * ‖F z‖ := by
      have e : fderiv ℝ F z d = (fderiv ℝ F z d + F z) - F z := by abel
      rw [e]
      refine (norm_sub_le _ _).trans ?_
      have : eta * ‖F z‖ ≤ 1 * ‖F z‖ := mul_le_mul_of_nonneg_right (by linarith) hFn
      linarith
    calc ‖d‖ ≤ Λ * ‖fderiv ℝ F z d‖ := i1 d
      _ ≤ Λ * (2 * ‖F z‖) := mul_le_mul_of_nonneg_left e1 hΛ.le
      _ = _ := by ring
  have hdr : ‖d‖ ≤ 2 * Λ * Λ * r1 := by
    calc ‖d‖ ≤ 2 * Λ * ‖F z‖ := hdn
      _ ≤ 2 * Λ * (Λ * r1) := mul_le_mul_of_nonneg_left (i2.trans (mul_le_mul_of_nonneg_left hz hΛ.le)) (by positivity)
      _ = _ := by ring
  have hzd : ‖z + d - x‖ ≤ r0 := by
    have : ‖z + d - x‖ ≤ ‖z - x‖ + ‖d‖ := by
      rw [show z + d - x = (z - x) + d by abel]; exact norm_add_le _ _
    linarith
  have hmain : ‖F (z + d)‖ ≤ q * ‖F z‖ := by
    have e1 := h2 z (z + d) hzr hzd
    rw [add_sub_cancel_left] at e1
    have e : F (z + d) = (F (z + d) - F z - fderiv ℝ F z d) + (fderiv ℝ F z d + F z) := by abel
    have e2 : G * ‖d‖ ^ 2 ≤ (q - eta) * ‖F z‖ := by
      calc G * ‖d‖ ^ 2 = G * (‖d‖ * ‖d‖) := by ring
        _ ≤ G * ((2 * Λ * Λ * r1) * (2 * Λ * ‖F z‖)) :=
          mul_le_mul_of_nonneg_left (mul_le_mul hdr hdn (norm_nonneg _) (by positivity)) hG
        _ = 4 * G * Λ * Λ * Λ * r1 * ‖F z‖ := by ring
        _ ≤ _ := mul_le_mul_of_nonneg_right hr1q hFn
    rw [e]
    refine (norm_add_le _ _).trans ?_
    linarith
  exact ⟨hmain, i2, i3, (h1 _ hzd).2.2⟩

end


section
variable {V W : Type*} [NormedAddCommGroup V] [NormedSpace ℝ V] [NormedAddCommGroup W] [NormedSpace ℝ W]

omit [NormedSpace ℝ W] in
/-- A full step that reduces the residual enough is taken by the Armijo search. -/
theorem full_step_taken (F : V → W) (dir : V → V) (o : NewtonOpts ℝ) {q : ℝ} (hq : 0 ≤ q)
    (hc : q * q ≤ 1 - 2 * o.c1) (hb : 0 < o.maxBacktracks)
    (s : NState ℝ V) (hhalf : ‖F (s.sol + dir s.sol)‖ ≤ q * ‖F s.sol‖) :
    newtonBody (exactEnv F dir) o s =
      ⟨s.sol + dir s.sol, some ‖F (s.sol + dir s.sol)‖, s.it + 1, true⟩ := by
  obtain ⟨h1, h2, -⟩ := C19_first_acceptable_step (exactEnv F dir) o s.sol (dir s.sol) (F s.sol)
    (some ‖F s.sol‖)
  have hacc : Acceptable (exactEnv F dir) o s.sol (dir s.sol) (F s.sol) (some ‖F s.sol‖) (o.rho ^ 0) := by
    refine ⟨rfl, ‖F (s.sol + dir s.sol)‖, ‖F s.sol‖, ‖F s.sol‖ * ‖F s.sol‖, by simp [exactEnv], rfl, rfl, ?_⟩
    have n1 := norm_nonneg (F (s.sol + dir s.sol))
    have n2 := norm_nonneg (F s.sol)
    have e1 : ‖F (s.sol + dir s.sol)‖ * ‖F (s.sol + dir s.sol)‖ ≤ (q * ‖F s.sol‖) * (q * ‖F s.sol‖) :=
      mul_le_mul hhalf hhalf n1 (by positivity)
    have e2 : q * q * (‖F s.sol‖ * ‖F s.sol‖) ≤ (1 - 2 * o.c1) * (‖F s.sol‖ * ‖F s.sol‖) :=
      mul_le_mul_of_nonneg_right hc (by positivity)
    simp only [pow_zero, mul_one]
    linarith
  have hf := h1.2 ⟨0, hb, hacc⟩
  obtain ⟨k, _, _, hk, _, _, e1, e2⟩ := h2 hf
  have hk0 : k = 0 := by
    by_contra hne
    exact hk 0 (by omega) hacc
  subst hk0
  have es : (exactEnv F dir).axpy s.sol (o.rho ^ 0) (dir s.sol) = s.sol + dir s.sol := by simp [exactEnv]
  rw [es] at e1
  rw [e1] at e2
  change (NState.mk (armijo (exactEnv F dir) o s.sol (dir s.sol) (F s.sol) (some ‖F s.sol‖)).sol
    (armijo (exactEnv F dir) o s.sol (dir s.sol) (F s.sol) (some ‖F s.sol‖)).norm (s.it + 1)
    (armijo (exactEnv F dir) o s.sol (dir s.sol) (F s.sol) (some ‖F s.sol‖)).found : NState ℝ V) = _
  rw [hf, e1, e2]
  rfl

theorem square_rate {C r e : ℝ} (hC : 0 ≤ C) (hr : 0 ≤ r) (hCr : C * r ≤ 1 / 2) (he : 0 ≤ e) (n : ℕ)
    (h : e ≤ r * (1 / 2) ^ (2 ^ n - 1)) : C * e ^ 2 ≤ r * (1 / 2) ^ (2 ^ (n + 1) - 1) := by
  have hn : 1 ≤ 2 ^ n := Nat.one_le_two_pow
  calc C * e ^ 2 ≤ C * (r * (1 / 2) ^ (2 ^ n - 1)) ^ 2 := by gcongr
    _ = (C * r) * r * (1 / 2) ^ (2 * (2 ^ n - 1)) := by rw [mul_pow, ← pow_mul, mul_comm (2 ^ n - 1) 2]; ring
    _ ≤ (1 / 2) * r * (1 / 2) ^ (2 * (2 ^ n - 1)) := by gcongr
    _ = r * (1 / 2) ^ (2 * (2 ^ n - 1) + 1) := by rw [pow_succ]; ring
    _ = r * (1 / 2) ^ (2 ^ (n + 1) - 1) := by
      congr 2
      rw [pow_succ]
      omega

/-- C151. Let `x` be a solution at which the residual is twice continuously differentiable with invertible
derivative, and let the linear solves be exact near `x`. Then there are a radius and constants such that
from every guess within the radius, with any options (Armijo constant at most 3/8, at least one trial), at
every state the loop passes through: the line search has succeeded; the error is at most
`r / 2^(2^it - 1)` after `it` iterations; and a further iteration takes the full Newton step and squares the
error up to a constant. -/
theorem C151_quadratic_convergence (F : V → W) (dir : V → V) (x : V) (A : V ≃L[ℝ] W)
    (hF : ContDiffAt ℝ 2 F x) (hA : fderiv ℝ F x = A) (h0 : F x = 0)
    (hd : ∀ᶠ z in 𝓝 x, fderiv ℝ F z (dir z) = -F z) :
    ∃ r C Λ : ℝ, 0 < r ∧ ∀ (o : NewtonOpts ℝ) (guess : V), o.c1 ≤ 3 / 8 → 0 < o.maxBacktracks →
      ‖guess - x‖ ≤ r →
      (∀ s, Reach (exactEnv F dir) o guess s →
        s.found = true ∧ ‖s.sol - x‖ ≤ r * (1 / 2) ^ (2 ^ s.it - 1) ∧ ‖F s.sol‖ ≤ Λ * ‖s.sol - x‖ ∧
        ‖s.sol - x‖ ≤ Λ * ‖F s.sol‖ ∧
        (newtonBody (exactEnv F dir) o s).sol = s.sol + dir s.sol ∧
        ‖(newtonBody (exactEnv F dir) o s).sol - x‖ ≤ C * ‖s.sol - x‖ ^ 2 ∧
        ‖F (newtonBody (exactEnv F dir) o s).sol‖ ≤ 1 / 2 * ‖F s.sol‖) ∧
      Reach (exactEnv F dir) o guess (newtonFinal (exactEnv F dir) o guess) := by
  obtain ⟨r1, C, Λ, hr1, hC, hCr1, hΛ, hstep1⟩ := newton_step_near F x A hF hA h0
  obtain ⟨r2, hr2, hd2⟩ := Metric.eventually_nhds_iff_ball.1 hd
  set r := min r1 (r2 / 2) with hrdef
  have hr : 0 < r := by positivity
  have hCr : C * r ≤ 1 / 2 := (mul_le_mul_of_nonneg_left (min_le_left _ _) hC).trans hCr1
  have hstep : ∀ z, ‖z - x‖ ≤ r → ‖z + dir z - x‖ ≤ C * ‖z - x‖ ^ 2 ∧ ‖F (z + dir z)‖ ≤ 1 / 2 * ‖F z‖ ∧
      ‖F z‖ ≤ Λ * ‖z - x‖ ∧ ‖z - x‖ ≤ Λ * ‖F z‖ := by
    intro z hz
    refine hstep1 z (dir z) (hz.trans (min_le_left _ _)) (hd2 z ?_)
    rw [Metric.mem_ball, dist_eq_norm]
    have := hz.trans (min_le_right r1 (r2 / 2))
    linarith
  refine ⟨r, C, Λ, hr, ?_⟩
  intro o guess hc hb hg
  have hle : ∀ n : ℕ, r * (1 / 2 : ℝ) ^ (2 ^ n - 1) ≤ r := fun n =>
    mul_le_of_le_one_right hr.le (pow_le_one₀ (by norm_num) (by norm_num))
  have hinv : ∀ s, Reach (exactEnv F dir) o guess s →
      s.found = true ∧ ‖s.sol - x‖ ≤ r * (1 / 2) ^ (2 ^ s.it - 1) := by
    intro s hs
    induction hs with
    | init => exact ⟨rfl, by simpa using hg⟩
    | step s _ _ ih =>
      obtain ⟨h1, h2, h3, h4⟩ := hstep s.sol (ih.2.trans (hle _))
      rw [full_step_taken F dir o (by norm_num) (by linarith) hb s h2]
      exact ⟨rfl, h1.trans (square_rate hC hr.le hCr (norm_nonneg _) _ ih.2)⟩
  refine ⟨?_, (loop_reach (exactEnv F dir) o guess _ Reach.init).1⟩
  intro s hs
  obtain ⟨h5, h6⟩ := hinv s hs
  obtain ⟨h1, h2, h3, h4⟩ := hstep s.sol (h6.trans (hle _))
  rw [full_step_taken F dir o (by norm_num) (by linarith) hb s h2]
  exact ⟨h5, h6, h3, h4, rfl, h1, h2⟩

/-- C151, what the caller gets: with an iteration limit that the rate needs for the tolerance, the solver
returns, without raising, a point whose residual meets the absolute or the relative tolerance, and the
distance to the solution is at most a constant times that residual. -/
theorem C151_solver_converges (F : V → W) (dir : V → V) (x : V) (A : V ≃L[ℝ] W)
    (hF : ContDiffAt ℝ 2 F x) (hA : fderiv ℝ F x = A) (h0 : F x = 0)
    (hd : ∀ᶠ z in 𝓝 x, fderiv ℝ F z (dir z) = -F z) :
    ∃ r Λ : ℝ, 0 < r ∧ ∀ tol : ℝ, 0 < tol → ∃ N : ℕ, ∀ (o : NewtonOpts ℝ) (guess : V) (raiseOnFail eager : Bool),
      o.tol = tol → o.c1 ≤ 3 / 8 → 0 < o.maxBacktracks → 0 < o.tiny → N ≤ o.maxIter → ‖guess - x‖ ≤ r →
      ∃ sol, newtonForward (exactEnv F dir) o raiseOnFail eager guess = .ok sol ∧
        (‖F sol‖ ≤ tol ∨ ‖F sol‖ ≤ o.relTol * max ‖F guess‖ o.tiny) ∧
        ‖sol - x‖ ≤ Λ * ‖F sol‖ ∧ ‖sol - x‖ ≤ r ∧ (newtonFinal (exactEnv F dir) o guess).it ≤ N := by
  obtain ⟨r, C, Λ, hr, hmain⟩ := C151_quadratic_convergence F dir x A hF hA h0 hd
  refine ⟨r, Λ, hr, ?_⟩
  intro tol htol
  obtain ⟨N, hN⟩ : ∃ N : ℕ, |Λ| * (r * (1 / 2) ^ (2 ^ N - 1)) ≤ tol := by
    have h1 : Tendsto (fun n : ℕ => |Λ| * (r * (1 / 2 : ℝ) ^ n)) atTop (𝓝 (|Λ| * (r * 0))) :=
      ((tendsto_pow_atTop_nhds_zero_of_lt_one (by norm_num) (by norm_num)).const_mul r).const_mul _
    rw [mul_zero, mul_zero] at h1
    obtain ⟨n, hn⟩ := (h1.eventually (gt_mem_nhds htol)).exists
    refine ⟨n + 1, le_trans ?_ hn.le⟩
    have h2 : n ≤ 2 ^ (n + 1) - 1 := by
      have := @Nat.lt_two_pow_self (n + 1)
      omega
    have h3 : (1 / 2 : ℝ) ^ (2 ^ (n + 1) - 1) ≤ (1 / 2) ^ n :=
      pow_le_pow_of_le_one (by norm_num) (by norm_num) h2
    gcongr
  refine ⟨N, ?_⟩
  intro o guess rf eg ht hc hb hti hmax hg
  obtain ⟨hall, hfin⟩ := hmain o guess hc hb hg
  set s := newtonFinal (exactEnv F dir) o guess with hs
  obtain ⟨f1, f2, f3, f4, -, -, -⟩ := hall s hfin
  have hrn : s.rn = some ‖F s.sol‖ := (reach_norm (exactEnv F dir) o guess s hfin).1
  -- small residual once N iterations are made
  have hsmall : ∀ q, Reach (exactEnv F dir) o guess q → N ≤ q.it → ‖F q.sol‖ ≤ tol := by
    intro q hq hqN
    obtain ⟨-, g2, g3, -⟩ := hall q hq
    have e1 : (1 / 2 : ℝ) ^ (2 ^ q.it - 1) ≤ (1 / 2) ^ (2 ^ N - 1) := by
      refine pow_le_pow_of_le_one (by norm_num) (by norm_num) ?_
      have := Nat.pow_le_pow_right (show 0 < 2 by norm_num) hqN
      omega
    calc ‖F q.sol‖ ≤ Λ * ‖q.sol - x‖ := g3
      _ ≤ |Λ| * ‖q.sol - x‖ := mul_le_mul_of_nonneg_right (le_abs_self _) (norm_nonneg _)
      _ ≤ |Λ| * (r * (1 / 2) ^ (2 ^ q.it - 1)) := mul_le_mul_of_nonneg_left g2 (abs_nonneg _)
      _ ≤ |Λ| * (r * (1 / 2) ^ (2 ^ N - 1)) := by gcongr
      _ ≤ tol := hN
  have hit : ∀ q, Reach (exactEnv F dir) o guess q → q.it ≤ N := by
    intro q hq
    induction hq with
    | init => simp
    | step q hq hcnd ih =>
      simp only [newtonBody]
      by_contra hlt
      have hN' : N ≤ q.it := by omega
      have h1 := hsmall q hq hN'
      have h2 : q.rn = some ‖F q.sol‖ := (reach_norm (exactEnv F dir) o guess q hq).1
      simp only [newtonCond, h2, flt, Bool.and_eq_true, decide_eq_true_eq] at hcnd
      rw [ht] at hcnd
      linarith [hcnd.1.2.1]
  refine ⟨s.sol, ?_, ?_, f4, ?_, hit s hfin⟩
  · simp only [newtonForward, ← hs, f1]
    simp
  · have hstop := (loop_reach (exactEnv F dir) o guess _ Reach.init).2
    change newtonCond o (some ‖F guess‖) s = false at hstop
    by_cases hmN : N ≤ s.it
    · exact Or.inl (hsmall s hfin hmN)
    · have hlt : s.it < o.maxIter := by omega
      have hpos : 0 < max ‖F guess‖ o.tiny := lt_of_lt_of_le hti (le_max_right _ _)
      simp only [newtonCond, hrn, flt, fop, f1, Bool.and_true, decide_eq_true hlt, Bool.true_and, ht,
        Bool.and_eq_false_iff, decide_eq_false_iff_not, not_lt] at hstop
      rcases hstop with h | h
      · exact Or.inl h
      · right
        rwa [div_le_iff₀ hpos] at h
  · exact f2.trans (mul_le_of_le_one_right hr.le (pow_le_one₀ (by norm_num) (by norm_num)))

/-- C151, the host-driven loops (assembled extra residual and AMG), which try the steps `1, rho, ...` and take
the first that decreases the residual: near a regular solution they report convergence within the same number
of iterations. -/
theorem C151_host_loops_converge (F : V → W) (dir : ℕ → V → V) (x : V) (A : V ≃L[ℝ] W)
    (hF : ContDiffAt ℝ 2 F x) (hA : fderiv ℝ F x = A) (h0 : F x = 0)
    (hd : ∃ r0 > 0, ∀ it z, ‖z - x‖ ≤ r0 → fderiv ℝ F z (dir it z) = -F z ) :
    ∃ r Λ : ℝ, 0 < r ∧ ∀ tol : ℝ, 0 < tol → ∃ N : ℕ, ∀ (o : NewtonOpts ℝ) (guess : V) (warns : Bool),
      o.tol = tol → 0 < o.maxBacktracks → N ≤ o.maxIter → ‖guess - x‖ ≤ r →
      ∃ q, hostSolve (exactEnv F (dir 0)) o dir warns (fun _ => false) guess = .ok q ∧ q.converged = true ∧
        q.norm = some ‖F q.sol‖ ∧ ‖q.sol - x‖ ≤ Λ * ‖F q.sol‖ ∧ ‖q.sol - x‖ ≤ r * (1 / 2) ^ (2 ^ q.steps - 1) := by
  obtain ⟨r1, C, Λ, hr1, hC, hCr1, hΛ, hstep1⟩ := newton_step_near F x A hF hA h0
  obtain ⟨r2, hr2, hd2⟩ := hd
  set r := min r1 r2 with hrdef
  have hr : 0 < r := lt_min hr1 hr2
  have hCr : C * r ≤ 1 / 2 := (mul_le_mul_of_nonneg_left (min_le_left _ _) hC).trans hCr1
  have hle : ∀ n : ℕ, r * (1 / 2 : ℝ) ^ (2 ^ n - 1) ≤ r := fun n =>
    mul_le_of_le_one_right hr.le (pow_le_one₀ (by norm_num) (by norm_num))
  have hstep : ∀ it z, ‖z - x‖ ≤ r → ‖z + dir it z - x‖ ≤ C * ‖z - x‖ ^ 2 ∧
      ‖F (z + dir it z)‖ ≤ 1 / 2 * ‖F z‖ ∧ ‖F z‖ ≤ Λ * ‖z - x‖ ∧ ‖z - x‖ ≤ Λ * ‖F z‖ := fun it z hz =>
    hstep1 z (dir it z) (hz.trans (min_le_left _ _)) (hd2 it z (hz.trans (min_le_right _ _)))
  refine ⟨r, Λ, hr, ?_⟩
  intro tol htol
  obtain ⟨N, hN⟩ : ∃ N : ℕ, Λ * (r * (1 / 2) ^ (2 ^ N - 1)) < tol := by
    have h1 : Tendsto (fun n : ℕ => Λ * (r * (1 / 2 : ℝ) ^ n)) atTop (𝓝 (Λ * (r * 0))) :=
      ((tendsto_pow_atTop_nhds_zero_of_lt_one (by norm_num) (by norm_num)).const_mul r).const_mul _
    rw [mul_zero, mul_zero] at h1
    obtain ⟨n, hn⟩ := (h1.eventually (gt_mem_nhds htol)).exists
    refine ⟨n + 1, lt_of_le_of_lt ?_ hn⟩
    have h2 : n ≤ 2 ^ (n + 1) - 1 := by
      have := @Nat.lt_two_pow_self (n + 1)
      omega
    have h3 : (1 / 2 : ℝ) ^ (2 ^ (n + 1) - 1) ≤ (1 / 2) ^ n :=
      pow_le_pow_of_le_one (by norm_num) (by norm_num) h2
    gcongr
  refine ⟨N, ?_⟩
  intro o guess warns ht hb hmax hg
  obtain ⟨m, hm⟩ : ∃ m, o.maxBacktracks = m + 1 := ⟨o.maxBacktracks - 1, by omega⟩
  have hloop : ∀ (n it : ℕ) (s : V × Option ℝ × ℕ), s.2.1 = some ‖F s.1‖ →
      ‖s.1 - x‖ ≤ r * (1 / 2) ^ (2 ^ s.2.2 - 1) → N ≤ s.2.2 + n →
      ∀ s', hostLoop (exactEnv F (dir 0)) o dir (fun _ => false) (some ‖F guess‖) n it s = s' →
      s'.2.1 = some ‖F s'.1‖ ∧ ‖s'.1 - x‖ ≤ r * (1 / 2) ^ (2 ^ s'.2.2 - 1) ∧
      (flt s'.2.1 (some o.tol) ||
        flt (fop (· / ·) s'.2.1 (fop (· + ·) (some ‖F guess‖) (some o.tiny))) (some o.relTol)) = true := by
    intro n
    induction n with
    | zero =>
      intro it s h1 h2 h3 s' hs'
      simp only [hostLoop] at hs'
      subst hs'
      refine ⟨h1, h2, ?_⟩
      rw [Bool.or_eq_true]
      left
      rw [h1, ht]
      simp only [flt, decide_eq_true_eq]
      have e1 : (1 / 2 : ℝ) ^ (2 ^ s.2.2 - 1) ≤ (1 / 2) ^ (2 ^ N - 1) := by
        refine pow_le_pow_of_le_one (by norm_num) (by norm_num) ?_
        have := Nat.pow_le_pow_right (show 0 < 2 by norm_num) (show N ≤ s.2.2 by omega)
        omega
      calc ‖F s.1‖ ≤ Λ * ‖s.1 - x‖ := (hstep 0 s.1 (h2.trans (hle _))).2.2.1
        _ ≤ Λ * (r * (1 / 2) ^ (2 ^ s.2.2 - 1)) := mul_le_mul_of_nonneg_left h2 hΛ
        _ ≤ Λ * (r * (1 / 2) ^ (2 ^ N - 1)) := by gcongr
        _ < tol := hN
    | succ n ih =>
      intro it s h1 h2 h3 s' hs'
      simp only [hostLoop] at hs'
      split at hs'
      · rename_i hf
        subst hs'
        exact ⟨h1, h2, by rw [hf]; rfl⟩
      · rename_i hf
        split at hs'
        · rename_i hg
          subst hs'
          rw [Bool.and_eq_true] at hg
          exact ⟨h1, h2, by rw [hg.2, Bool.or_true]⟩
        · simp only [Bool.false_eq_true, if_false] at hs'
          obtain ⟨q1, q2, q3, q4⟩ := hstep it s.1 (h2.trans (hle _))
          rw [h1, ht] at hf
          simp only [flt, decide_eq_true_eq, not_lt] at hf
          have hpos : 0 < ‖F s.1‖ := lt_of_lt_of_le htol hf
          have hbt : backtrack (exactEnv F (dir 0)) o.rho s.1 (dir it s.1) s.2.1 o.maxBacktracks 1 =
              some (s.1 + dir it s.1, some ‖F (s.1 + dir it s.1)‖) := by
            rw [hm, h1]
            simp only [backtrack, exactEnv, one_smul, flt]
            rw [if_pos]
            simp only [decide_eq_true_eq]
            linarith
          rw [hbt] at hs'
          exact ih (it + 1) (s.1 + dir it s.1, some ‖F (s.1 + dir it s.1)‖, s.2.2 + 1) rfl
            (q1.trans (square_rate hC hr.le hCr (norm_nonneg _) _ h2)) (by simp only; omega) s' hs'
  generalize hq : hostLoop (exactEnv F (dir 0)) o dir (fun _ => false) (some ‖F guess‖) o.maxIter 0
    (guess, some ‖F guess‖, 0) = q
  obtain ⟨g1, g2, g3⟩ := hloop o.maxIter 0 (guess, some ‖F guess‖, 0) rfl (by simpa using hg) (by simpa using hmax) q hq
  refine ⟨⟨q.1, q.2.1, true, q.2.2⟩, ?_, rfl, g1, (hstep 0 q.1 (g2.trans (hle _))).2.2.2, g2⟩
  have e : (exactEnv F (dir 0)).norm ((exactEnv F (dir 0)).resf guess) = some ‖F guess‖ := rfl
  simp only [hostSolve, e, hq, g3, Bool.not_true, Bool.and_false, Bool.false_and, Bool.false_eq_true, if_false]

/-- C151, inexact linear solves. If the direction solves the Newton equation only up to the fraction
`eta < q < 1` of the residual (an iterative solver with a relative tolerance), then from every guess close to
the regular solution, with `q ^ 2 ≤ 1 - 2 c1`: every line search succeeds, the residual after `it` iterations is
at most `q ^ it` times the first, the error is at most a constant times the residual, and with enough iterations
allowed the solver returns a point that meets the absolute or the relative tolerance. -/
theorem C151_inexact_solves (F : V → W) (dir : V → V) (x : V) (A : V ≃L[ℝ] W)
    (hF : ContDiffAt ℝ 2 F x) (hA : fderiv ℝ F x = A) (h0 : F x = 0) (eta q : ℝ) (he : eta < q) (hq0 : 0 ≤ q)
    (hq : q < 1) (hd : ∀ᶠ z in 𝓝 x, ‖fderiv ℝ F z (dir z) + F z‖ ≤ eta * ‖F z‖) :
    ∃ r Λ : ℝ, 0 < r ∧ ∀ tol : ℝ, 0 < tol → ∃ N : ℕ, ∀ (o : NewtonOpts ℝ) (guess : V),
      o.tol = tol → q * q ≤ 1 - 2 * o.c1 → 0 < o.maxBacktracks → 0 < o.tiny → ‖guess - x‖ ≤ r →
      (∀ s, Reach (exactEnv F dir) o guess s → s.found = true ∧ ‖F s.sol‖ ≤ q ^ s.it * ‖F guess‖ ∧
        ‖s.sol - x‖ ≤ Λ * ‖F s.sol‖) ∧
      (N ≤ o.maxIter → ∀ raiseOnFail eager : Bool,
        ∃ sol, newtonForward (exactEnv F dir) o raiseOnFail eager guess = .ok sol ∧
          (‖F sol‖ ≤ tol ∨ ‖F sol‖ ≤ o.relTol * max ‖F guess‖ o.tiny) ∧ ‖sol - x‖ ≤ Λ * ‖F sol‖) := by
  obtain ⟨ρ, hρ, hdρ⟩ := Metric.eventually_nhds_iff_ball.1 hd
  obtain ⟨r, r1, Λ, hr, hrr, hrρ, hΛ, hΛr, hstep⟩ := inexact_step_near F x A hF hA h0 eta q (ρ / 2) he hq
    (by positivity)
  have hd : ∀ z, ‖z - x‖ ≤ r1 → ‖fderiv ℝ F z (dir z) + F z‖ ≤ eta * ‖F z‖ := by
    intro z hz
    refine hdρ z ?_
    rw [Metric.mem_ball, dist_eq_norm]
    linarith
  refine ⟨r, Λ, hr, ?_⟩
  intro tol htol
  obtain ⟨N, hN⟩ : ∃ N : ℕ, q ^ N * (Λ * r) < tol := by
    have h1 : Tendsto (fun n : ℕ => q ^ n * (Λ * r)) atTop (𝓝 (0 * (Λ * r))) :=
      (tendsto_pow_atTop_nhds_zero_of_lt_one hq0 hq).mul_const _
    rw [zero_mul] at h1
    exact (h1.eventually (gt_mem_nhds htol)).exists
  refine ⟨N, ?_⟩
  intro o guess ht hc hb hti hg
  have hg1 := hg.trans hrr
  obtain ⟨-, g2, -, -⟩ := hstep guess (dir guess) hg1 (hd guess hg1)
  have hFg : ‖F guess‖ ≤ Λ * r := g2.trans (mul_le_mul_of_nonneg_left hg hΛ.le)
  have hinv : ∀ s, Reach (exactEnv F dir) o guess s →
      s.found = true ∧ ‖F s.sol‖ ≤ q ^ s.it * ‖F guess‖ ∧ ‖s.sol - x‖ ≤ r1 := by
    intro s hs
    induction hs with
    | init => exact ⟨rfl, by simp, hg1⟩
    | step s _ _ ih =>
      obtain ⟨-, i2, i3⟩ := ih
      obtain ⟨k1, k2, k3, k4⟩ := hstep s.sol (dir s.sol) i3 (hd s.sol i3)
      rw [full_step_taken F dir o hq0 hc hb s k1]
      have e1 : ‖F (s.sol + dir s.sol)‖ ≤ q ^ (s.it + 1) * ‖F guess‖ := by
        calc _ ≤ _ := k1
          _ ≤ q * (q ^ s.it * ‖F guess‖) := mul_le_mul_of_nonneg_left i2 hq0
          _ = _ := by ring
      refine ⟨rfl, e1, k4.trans ?_⟩
      have e2 : q ^ (s.it + 1) * ‖F guess‖ ≤ 1 * ‖F guess‖ :=
        mul_le_mul_of_nonneg_right (pow_le_one₀ hq0 hq.le) (norm_nonneg _)
      calc Λ * ‖F (s.sol + dir s.sol)‖ ≤ Λ * (Λ * r) :=
            mul_le_mul_of_nonneg_left ((e1.trans e2).trans (by linarith)) hΛ.le
        _ ≤ r1 := by linarith
  have hall : ∀ s, Reach (exactEnv F dir) o guess s → s.found = true ∧ ‖F s.sol‖ ≤ q ^ s.it * ‖F guess‖ ∧
      ‖s.sol - x‖ ≤ Λ * ‖F s.sol‖ := by
    intro s hs
    obtain ⟨k1, k2, k3⟩ := hinv s hs
    exact ⟨k1, k2, (hstep s.sol (dir s.sol) k3 (hd s.sol k3)).2.2.1⟩
  refine ⟨hall, ?_⟩
  intro hmax rf eg
  obtain ⟨hfin, hstop⟩ := loop_reach (exactEnv F dir) o guess _ Reach.init
  change Reach (exactEnv F dir) o guess (newtonFinal (exactEnv F dir) o guess) at hfin
  change newtonCond o (some ‖F guess‖) (newtonFinal (exactEnv F dir) o guess) = false at hstop
  set s := newtonFinal (exactEnv F dir) o guess with hs
  obtain ⟨f1, f2, f3⟩ := hall s hfin
  have hrn : s.rn = some ‖F s.sol‖ := (reach_norm (exactEnv F dir) o guess s hfin).1
  refine ⟨s.sol, ?_, ?_, f3⟩
  · simp only [newtonForward, ← hs, f1]
    simp
  · by_cases hmN : N ≤ s.it
    · left
      have e1 : q ^ s.it ≤ q ^ N := pow_le_pow_of_le_one hq0 hq.le hmN
      calc ‖F s.sol‖ ≤ q ^ s.it * ‖F guess‖ := f2
        _ ≤ q ^ N * (Λ * r) := mul_le_mul e1 hFg (norm_nonneg _) (by positivity)
        _ ≤ tol := hN.le
    · have hlt : s.it < o.maxIter := by omega
      have hpos : 0 < max ‖F guess‖ o.tiny := lt_of_lt_of_le hti (le_max_right _ _)
      simp only [newtonCond, hrn, flt, fop, f1, Bool.and_true, decide_eq_true hlt, Bool.true_and, ht,
        Bool.and_eq_false_iff, decide_eq_false_iff_not, not_lt] at hstop
      rcases hstop with h | h
      · exact Or.inl h
      · right
        rwa [div_le_iff₀ hpos] at h

/-- C151, away from the solution: wherever the residual is differentiable and not zero and the direction
solves the Newton equation, the Armijo search with constant below one and factor below one succeeds, provided
it may try often enough. -/
theorem C151_line_search_succeeds (F : V → W) (dir : V → V) (z : V) (hF : DifferentiableAt ℝ F z)
    (hd : fderiv ℝ F z (dir z) = -F z) (hne : F z ≠ 0) (c1 rho : ℝ) (hc0 : 0 ≤ c1) (hc : c1 < 1)
    (hr0 : 0 < rho) (hr1 : rho < 1) :
    ∃ K : ℕ, ∀ o : NewtonOpts ℝ, o.c1 = c1 → o.rho = rho → K < o.maxBacktracks →
      (armijo (exactEnv F dir) o z (dir z) (F z) (some ‖F z‖)).found = true := by
  have hn : 0 < ‖F z‖ := norm_pos_iff.2 hne
  have hder : HasDerivAt (fun a : ℝ => F (z + a • dir z)) (-F z) 0 := by
    have h1 : HasDerivAt (fun a : ℝ => z + a • dir z) (dir z) 0 := by
      simpa using ((hasDerivAt_id (0 : ℝ)).smul_const (dir z)).const_add z
    have h2 : HasFDerivAt F (fderiv ℝ F z) (z + (0 : ℝ) • dir z) := by simpa using hF.hasFDerivAt
    have := h2.comp_hasDerivAt (0 : ℝ) h1
    rwa [hd] at this
  have ho := (hasDerivAt_iff_isLittleO_nhds_zero.1 hder).def
    (show 0 < (1 - c1) / 2 * ‖F z‖ by have := sub_pos.2 hc; positivity)
  have hpow : Tendsto (fun k : ℕ => rho ^ k) atTop (𝓝 0) := tendsto_pow_atTop_nhds_zero_of_lt_one hr0.le hr1
  have hev := (hpow.eventually ho).and (hpow.eventually (gt_mem_nhds (sub_pos.2 hc)))
  obtain ⟨K, hK1, hK2⟩ := hev.exists
  refine ⟨K, ?_⟩
  intro o h1 h2 h3
  refine (C19_first_acceptable_step (exactEnv F dir) o z (dir z) (F z) (some ‖F z‖)).1.2 ⟨K, h3, ?_⟩
  refine ⟨rfl, ‖F (z + o.rho ^ K • dir z)‖, ‖F z‖, ‖F z‖ * ‖F z‖, rfl, rfl, rfl, ?_⟩
  rw [h1, h2]
  set a := rho ^ K with ha
  have ha0 : 0 < a := by positivity
  simp only [zero_add, zero_smul, add_zero, Real.norm_eq_abs, abs_of_pos ha0] at hK1
  have ht : ‖F (z + a • dir z)‖ ≤ ‖F z‖ * (1 - (1 + c1) / 2 * a) := by
    have e : F (z + a • dir z) = (F (z + a • dir z) - F z - a • -F z) + (1 - a) • F z := by module
    rw [e]
    have e2 : ‖(1 - a) • F z‖ = (1 - a) * ‖F z‖ := by
      rw [norm_smul, Real.norm_eq_abs, abs_of_nonneg (by linarith)]
    have := norm_add_le (F (z + a • dir z) - F z - a • -F z) ((1 - a) • F z)
    rw [e2] at this
    nlinarith
  have hb : ‖F (z + a • dir z)‖ * ‖F (z + a • dir z)‖ ≤
      (‖F z‖ * (1 - (1 + c1) / 2 * a)) * (‖F z‖ * (1 - (1 + c1) / 2 * a)) :=
    mul_le_mul ht ht (norm_nonneg _) ((norm_nonneg _).trans ht)
  have hfin : (1 - (1 + c1) / 2 * a) * (1 - (1 + c1) / 2 * a) ≤ 1 - 2 * (c1 * a) := by
    nlinarith [mul_pos ha0 ha0, mul_nonneg ha0.le (sub_pos.2 hc).le, sub_pos.2 hK2,
      mul_nonneg (mul_nonneg ha0.le ha0.le) (sub_pos.2 hc).le, mul_nonneg ha0.le (sub_pos.2 hK2).le,
      mul_nonneg (mul_nonneg ha0.le ha0.le) (mul_nonneg hc0 (sub_pos.2 hc).le)]
  have hfin2 := mul_le_mul_of_nonneg_left hfin (mul_nonneg hn.le hn.le)
  nlinarith

end

/-- A case that meets the hypotheses: `z ^ 2 - 1 = 0` at the solution 1 with the exact Newton direction. -/
theorem exSquareRoot : ContDiffAt ℝ 2 (fun z : ℝ => z ^ 2 - 1) 1 ∧
    fderiv ℝ (fun z : ℝ => z ^ 2 - 1) 1 =
      (ContinuousLinearEquiv.unitsEquivAut ℝ (Units.mk0 (2 : ℝ) two_ne_zero) : ℝ →L[ℝ] ℝ) ∧
    ∀ᶠ z in 𝓝 (1 : ℝ), fderiv ℝ (fun z : ℝ => z ^ 2 - 1) z (-(z ^ 2 - 1) / (2 * z)) = -(z ^ 2 - 1) := by
  have hd : ∀ z : ℝ, HasDerivAt (fun z : ℝ => z ^ 2 - 1) (2 * z) z := fun z => by
    simpa using ((hasDerivAt_id z).fun_pow 2).sub_const 1
  refine ⟨by fun_prop, ?_, ?_⟩
  · ext
    simp [(hd 1).hasFDerivAt.fderiv]
  · filter_upwards [isOpen_ne.mem_nhds (show (1 : ℝ) ≠ 0 from one_ne_zero)] with z hz
    have hz' : z ≠ 0 := hz
    rw [(hd z).hasFDerivAt.fderiv]
    simp
    field_simp

example : ∃ r : ℝ, 0 < r ∧ ∀ tol : ℝ, 0 < tol → ∃ N : ℕ, ∀ guess : ℝ, |guess - 1| ≤ r →
    ∃ sol, newtonForward (exactEnv (fun z : ℝ => z ^ 2 - 1) (fun z => -(z ^ 2 - 1) / (2 * z)))
      ⟨tol, 1 / 10 ^ 10, N, 1 / 10000, 1 / 2, 30, 1 / 10 ^ 30, 1 / 10 ^ 8⟩ true true guess = .ok sol ∧
      |sol - 1| ≤ r := by
  obtain ⟨r, Λ, hr, h⟩ := C151_solver_converges (fun z : ℝ => z ^ 2 - 1) (fun z => -(z ^ 2 - 1) / (2 * z)) 1 _
    exSquareRoot.1 exSquareRoot.2.1 (by norm_num) exSquareRoot.2.2
  refine ⟨r, hr, fun tol ht => ?_⟩
  obtain ⟨N, hN⟩ := h tol ht
  refine ⟨N, fun guess hg => ?_⟩
  obtain ⟨sol, h1, _, _, h4, _⟩ := hN ⟨tol, 1 / 10 ^ 10, N, 1 / 10000, 1 / 2, 30, 1 / 10 ^ 30, 1 / 10 ^ 8⟩ guess
    true true rfl (by norm_num) (by norm_num) (by norm_num) le_rfl hg
  exact ⟨sol, h1, h4⟩

/-- The same problem with directions one tenth too short, `eta = 1/10`, `q = 1/2`. -/
example : ∃ r : ℝ, 0 < r ∧ ∀ tol : ℝ, 0 < tol → ∃ N : ℕ, ∀ guess : ℝ, |guess - 1| ≤ r →
    ∃ sol, newtonForward (exactEnv (fun z : ℝ => z ^ 2 - 1) (fun z => 9 / 10 * (-(z ^ 2 - 1) / (2 * z))))
      ⟨tol, 0, N, 1 / 10000, 1 / 2, 30, 1 / 10 ^ 30, 1 / 10 ^ 8⟩ true true guess = .ok sol ∧
      |sol ^ 2 - 1| ≤ tol := by
  obtain ⟨r, Λ, hr, h⟩ := C151_inexact_solves (fun z : ℝ => z ^ 2 - 1)
    (fun z => 9 / 10 * (-(z ^ 2 - 1) / (2 * z))) 1 _ exSquareRoot.1 exSquareRoot.2.1 (by norm_num) (1 / 10) (1 / 2)
    (by norm_num) (by norm_num) (by norm_num) (by
      filter_upwards [exSquareRoot.2.2] with z hz
      have e : fderiv ℝ (fun z : ℝ => z ^ 2 - 1) z (9 / 10 * (-(z ^ 2 - 1) / (2 * z))) =
          9 / 10 * -(z ^ 2 - 1) := by
        rw [← hz, ← smul_eq_mul, map_smul, smul_eq_mul, hz, hz]
      rw [e, show 9 / 10 * -(z ^ 2 - 1) + (z ^ 2 - 1) = 1 / 10 * (z ^ 2 - 1) by ring, norm_mul]
      norm_num)
  refine ⟨r, hr, fun tol ht => ?_⟩
  obtain ⟨N, hN⟩ := h tol ht
  refine ⟨N, fun guess hg => ?_⟩
  obtain ⟨-, h2⟩ := hN ⟨tol, 0, N, 1 / 10000, 1 / 2, 30, 1 / 10 ^ 30, 1 / 10 ^ 8⟩ guess rfl (by norm_num)
    (by norm_num) (by norm_num) hg
  obtain ⟨sol, h3, h4, _⟩ := h2 le_rfl true true
  refine ⟨sol, h3, ?_⟩
  rcases h4 with h4 | h4
  · exact h4
  · rw [zero_mul] at h4
    exact h4.trans ht.le

end Verif.Props
