import Verif.Props.NewtonConverge
import Mathlib.Analysis.InnerProductSpace.Basic
import Mathlib.Analysis.Normed.Module.FiniteDimension
import Mathlib.Topology.MetricSpace.ProperSpace

/-!
# C155: Newton's method with line search converges from afar
-/

namespace Verif.Props
open Verif.Model.Newton Filter Topology

namespace Spec
variable {V W : Type*} [NormedAddCommGroup V] [NormedSpace ℝ V] [NormedAddCommGroup W] [NormedSpace ℝ W]

/-- The points whose residual is at most `n0` form a bounded set, at each of them the tangent is regular, and `dir` is the
Newton direction. -/
structure RegularLevel (F : V → W) (dir : V → V) (n0 : ℝ) : Prop where
  bounded : Bornology.IsBounded {z | ‖F z‖ ≤ n0}
  regular : ∀ z, ‖F z‖ ≤ n0 → Function.Injective (fderiv ℝ F z)
  newton : ∀ z, ‖F z‖ ≤ n0 → fderiv ℝ F z (dir z) = -F z

end Spec

section
variable {V W : Type*} [NormedAddCommGroup V] [NormedSpace ℝ V] [FiniteDimensional ℝ V]
  [NormedAddCommGroup W] [NormedSpace ℝ W]

/-- On a bounded set of regular points, the residual along the Newton direction is the linear one up to a quadratic term. -/
theorem level_expansion (F : V → W) (hF : ContDiff ℝ 2 F) (dir : V → V) (n0 : ℝ) (h : Spec.RegularLevel F dir n0) :
    ∃ K : ℝ, 0 ≤ K ∧ ∀ z, ‖F z‖ ≤ n0 → ∀ a : ℝ, 0 ≤ a → a ≤ 1 →
      ‖F (z + a • dir z) - (1 - a) • F z‖ ≤ K * a ^ 2 * ‖F z‖ ^ 2 := by
  have : ProperSpace V := FiniteDimensional.proper ℝ V
  have hFc : Continuous F := hF.continuous
  have hclosed : IsClosed {z | ‖F z‖ ≤ n0} := isClosed_le hFc.norm continuous_const
  have hcomp : IsCompact {z | ‖F z‖ ≤ n0} := Metric.isCompact_of_isClosed_isBounded hclosed h.bounded
  have hdc : Continuous (fderiv ℝ F) := hF.continuous_fderiv (by norm_num)
  -- lower bound of the tangents
  obtain ⟨β, hβ, hlow⟩ : ∃ β : ℝ, 0 < β ∧ ∀ z, ‖F z‖ ≤ n0 → ∀ v, ‖v‖ ≤ β * ‖fderiv ℝ F z v‖ := by
    by_cases hne : ({z | ‖F z‖ ≤ n0} ×ˢ Metric.sphere (0 : V) 1).Nonempty
    · obtain ⟨⟨z0, v0⟩, ⟨hz0, hv0⟩, hmin⟩ := (hcomp.prod (isCompact_sphere (0 : V) 1)).exists_isMinOn hne
        (f := fun q : V × V => ‖fderiv ℝ F q.1 q.2‖) (by
          refine Continuous.continuousOn ?_
          exact ((hdc.comp continuous_fst).clm_apply continuous_snd).norm)
      set m := ‖fderiv ℝ F z0 v0‖ with hm
      have hv1 : ‖v0‖ = 1 := by simpa using hv0
      have hm0 : 0 < m := by
        rw [hm, norm_pos_iff]
        intro h0
        have : v0 = 0 := h.regular z0 hz0 (by rw [h0, map_zero])
        rw [this, norm_zero] at hv1
        exact zero_ne_one hv1
      refine ⟨1 / m, by positivity, ?_⟩
      intro z hz v
      rcases eq_or_ne v 0 with rfl | hv
      · simp
      · have hvp : 0 < ‖v‖ := norm_pos_iff.2 hv
        have h1 : m ≤ ‖fderiv ℝ F z (‖v‖⁻¹ • v)‖ := by
          refine hmin (show ((z, ‖v‖⁻¹ • v) : V × V) ∈ _ from ⟨hz, ?_⟩)
          simp [norm_smul, hvp.ne']
        rw [map_smul, norm_smul, norm_inv, norm_norm] at h1
        rw [one_div, ← div_eq_inv_mul, le_div_iff₀ hm0]
        calc ‖v‖ * m ≤ ‖v‖ * (‖v‖⁻¹ * ‖fderiv ℝ F z v‖) := mul_le_mul_of_nonneg_left h1 hvp.le
          _ = ‖fderiv ℝ F z v‖ := by rw [← mul_assoc, mul_inv_cancel₀ hvp.ne', one_mul]
    · refine ⟨1, one_pos, ?_⟩
      intro z hz v
      by_contra hlt
      rw [not_le, one_mul] at hlt
      have hvp : 0 < ‖v‖ := lt_of_le_of_lt (norm_nonneg _) hlt
      exact hne ⟨(z, ‖v‖⁻¹ • v), hz, by simp [norm_smul, hvp.ne']⟩
  obtain ⟨R, hR⟩ := h.bounded.subset_closedBall (0 : V)
  set B := Metric.closedBall (0 : V) (R + β * |n0|) with hB
  obtain ⟨γ, hγ⟩ := ((hF.fderiv_right (m := 1) (by norm_num)).contDiffOn (s := B)).exists_lipschitzOnWith one_ne_zero
    (convex_closedBall _ _) (isCompact_closedBall _ _)
  have hγ0 : (0 : ℝ) ≤ γ := γ.2
  refine ⟨γ * β ^ 2, by positivity, ?_⟩
  intro z hz a ha0 ha1
  set d := dir z with hd
  have hdF : ‖d‖ ≤ β * ‖F z‖ := by
    have := hlow z hz d
    rwa [h.newton z hz, norm_neg] at this
  have hzR : ‖z‖ ≤ R := by simpa using hR hz
  have hn0 : ‖F z‖ ≤ |n0| := hz.trans (le_abs_self _)
  have hin : ∀ q ∈ segment ℝ z (z + a • d), q ∈ B ∧ ‖q - z‖ ≤ a * ‖d‖ := by
    intro q hq
    rw [segment_eq_image'] at hq
    obtain ⟨θ, ⟨h0, h1⟩, rfl⟩ := hq
    have e : z + θ • (z + a • d - z) - z = (θ * a) • d := by module
    have hle : ‖z + θ • (z + a • d - z) - z‖ ≤ a * ‖d‖ := by
      rw [e, norm_smul, Real.norm_eq_abs, abs_of_nonneg (by positivity)]
      exact mul_le_mul_of_nonneg_right (mul_le_of_le_one_left ha0 h1) (norm_nonneg _)
    refine ⟨?_, hle⟩
    rw [hB, mem_closedBall_zero_iff]
    have h2 : a * ‖d‖ ≤ β * |n0| := by
      calc a * ‖d‖ ≤ 1 * ‖d‖ := mul_le_mul_of_nonneg_right ha1 (norm_nonneg _)
        _ ≤ β * |n0| := by rw [one_mul]; exact hdF.trans (mul_le_mul_of_nonneg_left hn0 hβ.le)
    have h3 := norm_add_le z (z + θ • (z + a • d - z) - z)
    rw [add_sub_cancel] at h3
    linarith
  have hmv : ‖F (z + a • d) - F z - fderiv ℝ F z (z + a • d - z)‖ ≤ γ * (a * ‖d‖) * ‖z + a • d - z‖ := by
    refine Convex.norm_image_sub_le_of_norm_hasFDerivWithin_le' (𝕜 := ℝ) (f' := fderiv ℝ F)
      (s := segment ℝ z (z + a • d)) ?_ ?_ (convex_segment _ _) (left_mem_segment _ _ _) (right_mem_segment _ _ _)
    · intro q _
      exact ((hF.differentiable (by norm_num)) q).hasFDerivAt.hasFDerivWithinAt
    · intro q hq
      have h1 := hγ.dist_le_mul q (hin q hq).1 z (hin z (left_mem_segment _ _ _)).1
      rw [dist_eq_norm, dist_eq_norm] at h1
      exact h1.trans (mul_le_mul_of_nonneg_left (hin q hq).2 hγ0)
  have e1 : z + a • d - z = a • d := by abel
  rw [e1, map_smul, hd, h.newton z hz, norm_smul, Real.norm_eq_abs, abs_of_nonneg ha0] at hmv
  have e2 : F (z + a • d) - (1 - a) • F z = F (z + a • d) - F z - a • -F z := by module
  rw [e2]
  refine hmv.trans ?_
  have h5 : ‖d‖ * ‖d‖ ≤ (β * ‖F z‖) * (β * ‖F z‖) := mul_le_mul hdF hdF (norm_nonneg _) (by positivity)
  calc (γ : ℝ) * (a * ‖dir z‖) * (a * ‖dir z‖) = γ * a ^ 2 * (‖d‖ * ‖d‖) := by rw [← hd]; ring
    _ ≤ γ * a ^ 2 * ((β * ‖F z‖) * (β * ‖F z‖)) := mul_le_mul_of_nonneg_left h5 (by positivity)
    _ = γ * β ^ 2 * a ^ 2 * ‖F z‖ ^ 2 := by ring

/-- A step size that the Armijo test accepts. -/
theorem acceptable_of_expansion {n t K a c1 : ℝ} (hn : 0 ≤ n) (ht : 0 ≤ t) (ha0 : 0 < a) (ha1 : a ≤ 1) (hK : K * a * n ≤ 1 / 2)
    (h : t ≤ (1 - a) * n + K * a ^ 2 * n ^ 2) (hc : c1 ≤ 3 / 8) : (t * t - n * n) / 2 ≤ c1 * a * (-(n * n)) := by
  have h1 : t ≤ (1 - a / 2) * n := by
    have : K * a ^ 2 * n ^ 2 ≤ 1 / 2 * (a * n) := by
      calc K * a ^ 2 * n ^ 2 = (K * a * n) * (a * n) := by ring
        _ ≤ _ := mul_le_mul_of_nonneg_right hK (by positivity)
    linarith
  have h2 : t * t ≤ ((1 - a / 2) * n) * ((1 - a / 2) * n) := mul_le_mul h1 h1 ht (ht.trans h1)
  have h3 : (1 - a / 2) * (1 - a / 2) ≤ 1 - 2 * (c1 * a) := by nlinarith [mul_nonneg ha0.le (sub_nonneg.2 ha1)]
  have h4 := mul_le_mul_of_nonneg_right h3 (mul_nonneg hn hn)
  nlinarith

/-- C155: global convergence. If the residual is twice continuously differentiable, the points with residual at most `n0` form
a bounded set, and the tangent is regular at each of them, then from every starting point in that set, near a solution or not,
the residual decreases by a fixed factor in every iteration, no line search fails, and the solver returns, without raising, a
point that meets the absolute or the relative tolerance, provided the line search may try `B` times and the loop may run `N`
times. -/
theorem C155_global_convergence (F : V → W) (hF : ContDiff ℝ 2 F) (dir : V → V) (n0 : ℝ) (h : Spec.RegularLevel F dir n0)
    (c1 rho : ℝ) (hc0 : 0 < c1) (hc : c1 ≤ 3 / 8) (hr0 : 0 < rho) (hr1 : rho < 1) :
    ∃ (B : ℕ) (Q : ℝ), 0 ≤ Q ∧ Q < 1 ∧ ∀ tol : ℝ, 0 < tol → ∃ N : ℕ, ∀ (o : NewtonOpts ℝ) (guess : V),
      o.tol = tol → o.c1 = c1 → o.rho = rho → B < o.maxBacktracks → 0 < o.tiny → ‖F guess‖ ≤ n0 →
      (∀ s, Reach (exactEnv F dir) o guess s → s.found = true ∧ ‖F s.sol‖ ^ 2 ≤ Q ^ s.it * ‖F guess‖ ^ 2) ∧
      (N ≤ o.maxIter → ∀ raiseOnFail eager : Bool,
        ∃ sol, newtonForward (exactEnv F dir) o raiseOnFail eager guess = .ok sol ∧
          (‖F sol‖ ≤ tol ∨ ‖F sol‖ ≤ o.relTol * max ‖F guess‖ o.tiny)) := by
  obtain ⟨K, hK, hexp⟩ := level_expansion F hF dir n0 h
  obtain ⟨B, hB⟩ : ∃ B : ℕ, K * |n0| * rho ^ B < 1 / 2 := by
    have h1 : Tendsto (fun k : ℕ => K * |n0| * rho ^ k) atTop (𝓝 (K * |n0| * 0)) :=
      (tendsto_pow_atTop_nhds_zero_of_lt_one hr0.le hr1).const_mul _
    rw [mul_zero] at h1
    exact (h1.eventually (gt_mem_nhds (by norm_num : (0 : ℝ) < 1 / 2))).exists
  have hrB0 : 0 < rho ^ B := by positivity
  have hrB1 : rho ^ B ≤ 1 := pow_le_one₀ hr0.le hr1.le
  set Q := 1 - 2 * (c1 * rho ^ B) with hQ
  have hQ0 : 0 ≤ Q := by nlinarith
  have hQ1 : Q < 1 := by nlinarith [mul_pos hc0 hrB0]
  refine ⟨B, Q, hQ0, hQ1, ?_⟩
  intro tol htol
  obtain ⟨N, hN⟩ : ∃ N : ℕ, Q ^ N * |n0| ^ 2 < tol ^ 2 := by
    have h1 : Tendsto (fun k : ℕ => Q ^ k * |n0| ^ 2) atTop (𝓝 (0 * |n0| ^ 2)) :=
      (tendsto_pow_atTop_nhds_zero_of_lt_one hQ0 hQ1).mul_const _
    rw [zero_mul] at h1
    exact (h1.eventually (gt_mem_nhds (by positivity : (0 : ℝ) < tol ^ 2))).exists
  refine ⟨N, ?_⟩
  intro o guess ht hoc hor hob hti hg
  -- one iteration
  have hone : ∀ s : NState ℝ V, ‖F s.sol‖ ≤ n0 → (newtonBody (exactEnv F dir) o s).found = true ∧
      ‖F (newtonBody (exactEnv F dir) o s).sol‖ ^ 2 ≤ Q * ‖F s.sol‖ ^ 2 := by
    intro s hs
    obtain ⟨g1, g2, -⟩ := C19_first_acceptable_step (exactEnv F dir) o s.sol (dir s.sol) (F s.sol) (some ‖F s.sol‖)
    have hacc : Acceptable (exactEnv F dir) o s.sol (dir s.sol) (F s.sol) (some ‖F s.sol‖) (o.rho ^ B) := by
      refine ⟨rfl, ‖F (s.sol + o.rho ^ B • dir s.sol)‖, ‖F s.sol‖, ‖F s.sol‖ * ‖F s.sol‖, rfl, rfl, rfl, ?_⟩
      rw [hoc, hor]
      refine acceptable_of_expansion (norm_nonneg _) (norm_nonneg _) hrB0 hrB1 (K := K) ?_ ?_ hc
      · calc K * rho ^ B * ‖F s.sol‖ ≤ K * rho ^ B * |n0| :=
              mul_le_mul_of_nonneg_left (hs.trans (le_abs_self _)) (by positivity)
          _ = K * |n0| * rho ^ B := by ring
          _ ≤ 1 / 2 := hB.le
      · have h1 := hexp s.sol hs (rho ^ B) hrB0.le hrB1
        have h2 := norm_add_le (F (s.sol + rho ^ B • dir s.sol) - (1 - rho ^ B) • F s.sol) ((1 - rho ^ B) • F s.sol)
        rw [sub_add_cancel, norm_smul, Real.norm_eq_abs, abs_of_nonneg (by linarith)] at h2
        linarith
    have hf := g1.2 ⟨B, hob, hacc⟩
    obtain ⟨k, _, ⟨-, t, r, g, e1, e2, e3, e4⟩, _, hmax, _, e5, _⟩ := g2 hf
    have hk : rho ^ B ≤ rho ^ k := by
      have := hmax (by rw [hor]; exact hr0) (by rw [hor]; exact hr1) B hob hacc
      rwa [hor] at this
    refine ⟨hf, ?_⟩
    have hsol : (newtonBody (exactEnv F dir) o s).sol = (exactEnv F dir).axpy s.sol (o.rho ^ k) (dir s.sol) := e5
    have e1' : ‖F (newtonBody (exactEnv F dir) o s).sol‖ = t := by
      rw [hsol]
      exact Option.some.inj e1
    have e2' : ‖F s.sol‖ = r := Option.some.inj e2
    have e3' : ‖F s.sol‖ * ‖F s.sol‖ = g := Option.some.inj e3
    rw [hoc, hor, ← e3', ← e2', ← e1'] at e4
    have h6 : c1 * rho ^ B * (‖F s.sol‖ * ‖F s.sol‖) ≤ c1 * rho ^ k * (‖F s.sol‖ * ‖F s.sol‖) :=
      mul_le_mul_of_nonneg_right (mul_le_mul_of_nonneg_left hk hc0.le) (by positivity)
    rw [hQ]
    nlinarith
  have hall : ∀ s, Reach (exactEnv F dir) o guess s → s.found = true ∧ ‖F s.sol‖ ^ 2 ≤ Q ^ s.it * ‖F guess‖ ^ 2 := by
    intro s hs
    induction hs with
    | init => exact ⟨rfl, by simp⟩
    | step s _ _ ih =>
      have hle : ‖F s.sol‖ ≤ n0 := by
        refine le_trans (abs_le_of_sq_le_sq' ?_ (norm_nonneg _)).2 hg
        refine ih.2.trans (mul_le_of_le_one_left (by positivity) (pow_le_one₀ hQ0 hQ1.le))
      obtain ⟨k1, k2⟩ := hone s hle
      refine ⟨k1, k2.trans ?_⟩
      have : (newtonBody (exactEnv F dir) o s).it = s.it + 1 := rfl
      rw [this, pow_succ' Q]
      calc Q * ‖F s.sol‖ ^ 2 ≤ Q * (Q ^ s.it * ‖F guess‖ ^ 2) := mul_le_mul_of_nonneg_left ih.2 hQ0
        _ = _ := by ring
  refine ⟨hall, ?_⟩
  intro hmaxIter rf eg
  obtain ⟨hfin, hstop⟩ := loop_reach (exactEnv F dir) o guess _ Reach.init
  change Reach (exactEnv F dir) o guess (newtonFinal (exactEnv F dir) o guess) at hfin
  change newtonCond o (some ‖F guess‖) (newtonFinal (exactEnv F dir) o guess) = false at hstop
  set s := newtonFinal (exactEnv F dir) o guess with hs
  obtain ⟨f1, f2⟩ := hall s hfin
  have hrn : s.rn = some ‖F s.sol‖ := (reach_norm (exactEnv F dir) o guess s hfin).1
  refine ⟨s.sol, ?_, ?_⟩
  · simp only [newtonForward, ← hs, f1]
    simp
  · by_cases hmN : N ≤ s.it
    · left
      refine (abs_le_of_sq_le_sq' ?_ htol.le).2
      calc ‖F s.sol‖ ^ 2 ≤ Q ^ s.it * ‖F guess‖ ^ 2 := f2
        _ ≤ Q ^ N * |n0| ^ 2 := by
            refine mul_le_mul (pow_le_pow_of_le_one hQ0 hQ1.le hmN) ?_ (by positivity) (by positivity)
            exact pow_le_pow_left₀ (norm_nonneg _) (hg.trans (le_abs_self _)) 2
        _ ≤ tol ^ 2 := hN.le
    · have hlt : s.it < o.maxIter := by omega
      have hpos : 0 < max ‖F guess‖ o.tiny := lt_of_lt_of_le hti (le_max_right _ _)
      simp only [newtonCond, hrn, flt, fop, f1, Bool.and_true, decide_eq_true hlt, Bool.true_and, ht,
        Bool.and_eq_false_iff, decide_eq_false_iff_not, not_lt] at hstop
      rcases hstop with h | h
      · exact Or.inl h
      · right
        rwa [div_le_iff₀ hpos] at h

/-- C155: such a level set, unless it is empty, contains a solution. -/
theorem C155_solution_exists (F : V → W) (hF : ContDiff ℝ 2 F) (dir : V → V) (n0 : ℝ) (h : Spec.RegularLevel F dir n0)
    (guess : V) (hg : ‖F guess‖ ≤ n0) : ∃ x, F x = 0 := by
  have : ProperSpace V := FiniteDimensional.proper ℝ V
  obtain ⟨K, hK, hexp⟩ := level_expansion F hF dir n0 h
  have hcomp : IsCompact {z | ‖F z‖ ≤ n0} :=
    Metric.isCompact_of_isClosed_isBounded (isClosed_le hF.continuous.norm continuous_const) h.bounded
  obtain ⟨x, hx, hmin⟩ := hcomp.exists_isMinOn ⟨guess, hg⟩ (hF.continuous.norm.continuousOn (s := {z | ‖F z‖ ≤ n0}))
  refine ⟨x, ?_⟩
  by_contra hne
  have hn : 0 < ‖F x‖ := norm_pos_iff.2 hne
  set a := min 1 (1 / (2 * (K * ‖F x‖ + 1))) with ha
  have ha0 : 0 < a := by positivity
  have ha1 : a ≤ 1 := min_le_left _ _
  have haK : K * a * ‖F x‖ ≤ 1 / 2 := by
    have h1 : a ≤ 1 / (2 * (K * ‖F x‖ + 1)) := min_le_right _ _
    calc K * a * ‖F x‖ = a * (K * ‖F x‖) := by ring
      _ ≤ 1 / (2 * (K * ‖F x‖ + 1)) * (K * ‖F x‖) := mul_le_mul_of_nonneg_right h1 (by positivity)
      _ ≤ 1 / 2 := by
        rw [div_mul_eq_mul_div, div_le_div_iff₀ (by positivity) (by norm_num)]
        linarith
  have h1 := hexp x hx a ha0.le ha1
  have h2 := norm_add_le (F (x + a • dir x) - (1 - a) • F x) ((1 - a) • F x)
  rw [sub_add_cancel, norm_smul, Real.norm_eq_abs, abs_of_nonneg (by linarith)] at h2
  have h3 : K * a ^ 2 * ‖F x‖ ^ 2 ≤ 1 / 2 * (a * ‖F x‖) := by
    calc K * a ^ 2 * ‖F x‖ ^ 2 = (K * a * ‖F x‖) * (a * ‖F x‖) := by ring
      _ ≤ _ := mul_le_mul_of_nonneg_right haK (by positivity)
  have h4 : ‖F (x + a • dir x)‖ < ‖F x‖ := by nlinarith [mul_pos ha0 hn]
  have hx' : ‖F x‖ ≤ n0 := hx
  have h5 : ‖F x‖ ≤ ‖F (x + a • dir x)‖ := hmin (show x + a • dir x ∈ {z | ‖F z‖ ≤ n0} from h4.le.trans hx')
  linarith

end

section
variable {V : Type*} [NormedAddCommGroup V] [InnerProductSpace ℝ V] [FiniteDimensional ℝ V]
open scoped InnerProductSpace

omit [FiniteDimensional ℝ V] in
/-- Strongly monotone problems (gradients of strongly convex energies) are regular at every level. -/
theorem monotone_regular (F : V → V) (hF : Differentiable ℝ F) (m : ℝ) (hm : 0 < m)
    (hmono : ∀ u w, m * ‖u - w‖ ^ 2 ≤ ⟪F u - F w, u - w⟫_ℝ) (dir : V → V) (hd : ∀ z, fderiv ℝ F z (dir z) = -F z) (n0 : ℝ) :
    (∀ u w, m * ‖u - w‖ ≤ ‖F u - F w‖) ∧ Spec.RegularLevel F dir n0 := by
  have hanti : ∀ u w, m * ‖u - w‖ ≤ ‖F u - F w‖ := by
    intro u w
    rcases (norm_nonneg (u - w)).eq_or_lt with h0 | h0
    · rw [← h0, mul_zero]
      exact norm_nonneg _
    · have h1 := (hmono u w).trans (real_inner_le_norm _ _)
      refine le_of_mul_le_mul_right ?_ h0
      calc m * ‖u - w‖ * ‖u - w‖ = m * ‖u - w‖ ^ 2 := by ring
        _ ≤ _ := h1
  refine ⟨hanti, ⟨?_, ?_, fun z _ => hd z⟩⟩
  · refine (Metric.isBounded_closedBall (x := (0 : V)) (r := (n0 + ‖F 0‖) / m)).subset ?_
    intro z hz
    rw [mem_closedBall_zero_iff, le_div_iff₀ hm]
    have h1 := hanti z 0
    rw [sub_zero] at h1
    have h2 := norm_sub_le (F z) (F 0)
    have h3 : ‖F z‖ ≤ n0 := hz
    linarith
  · intro z _
    rw [injective_iff_map_eq_zero]
    intro v hv
    by_contra hne
    have hvp : 0 < ‖v‖ := norm_pos_iff.2 hne
    -- the difference quotient along v
    have h1 : HasDerivAt (fun a : ℝ => z + a • v) v 0 := by
      simpa using ((hasDerivAt_id (0 : ℝ)).smul_const v).const_add z
    have h2 : HasFDerivAt F (fderiv ℝ F z) (z + (0 : ℝ) • v) := by simpa using (hF z).hasFDerivAt
    have h3 := h2.comp_hasDerivAt (0 : ℝ) h1
    rw [hv] at h3
    have ho := (hasDerivAt_iff_isLittleO_nhds_zero.1 h3).def (show 0 < m * ‖v‖ / 2 by positivity)
    obtain ⟨ε, hε, hball⟩ := Metric.eventually_nhds_iff_ball.1 ho
    have h4 := hball (ε / 2) (by rw [Metric.mem_ball, dist_zero_right, Real.norm_eq_abs, abs_of_pos (by positivity)]; linarith)
    simp only [Function.comp_apply, zero_add, zero_smul, add_zero, smul_zero, sub_zero, Real.norm_eq_abs,
      abs_of_pos (half_pos hε)] at h4
    have h5 := hanti (z + (ε / 2) • v) z
    rw [add_sub_cancel_left, norm_smul, Real.norm_eq_abs, abs_of_pos (half_pos hε)] at h5
    nlinarith [mul_pos (half_pos hε) (mul_pos hm hvp)]

/-- C155 for strongly monotone problems: the solution exists and is unique, and from every starting point the solver returns,
without raising, a point within `max(tol, rel_tol max(‖F guess‖, tiny)) / m` of it. -/
theorem C155_strongly_monotone (F : V → V) (hF : ContDiff ℝ 2 F) (m : ℝ) (hm : 0 < m)
    (hmono : ∀ u w, m * ‖u - w‖ ^ 2 ≤ ⟪F u - F w, u - w⟫_ℝ) (dir : V → V) (hd : ∀ z, fderiv ℝ F z (dir z) = -F z)
    (c1 rho : ℝ) (hc0 : 0 < c1) (hc : c1 ≤ 3 / 8) (hr0 : 0 < rho) (hr1 : rho < 1) :
    ∃ x, (∀ y, F y = 0 ↔ y = x) ∧ ∀ n0 : ℝ, ∃ B : ℕ, ∀ tol : ℝ, 0 < tol → ∃ N : ℕ, ∀ (o : NewtonOpts ℝ) (guess : V) (raiseOnFail eager : Bool),
      o.tol = tol → o.c1 = c1 → o.rho = rho → B < o.maxBacktracks → N ≤ o.maxIter → 0 < o.tiny → ‖F guess‖ ≤ n0 →
      ∃ sol, newtonForward (exactEnv F dir) o raiseOnFail eager guess = .ok sol ∧
        m * ‖sol - x‖ ≤ max tol (o.relTol * max ‖F guess‖ o.tiny) := by
  have hdf : Differentiable ℝ F := hF.differentiable (by norm_num)
  have hreg := fun n0 => monotone_regular F hdf m hm hmono dir hd n0
  have hanti := (hreg 0).1
  obtain ⟨x, hx⟩ := C155_solution_exists F hF dir ‖F 0‖ (hreg _).2 0 le_rfl
  refine ⟨x, ?_, ?_⟩
  · refine fun y => ⟨fun hy => ?_, fun hy => by rw [hy, hx]⟩
    have := hanti y x
    rw [hx, hy, sub_self, norm_zero] at this
    have h0 : ‖y - x‖ ≤ 0 := by
      by_contra hlt
      rw [not_le] at hlt
      nlinarith [mul_pos hm hlt]
    exact sub_eq_zero.1 (norm_le_zero_iff.1 h0)
  · intro n0
    obtain ⟨B, Q, _, _, hB⟩ := C155_global_convergence F hF dir n0 (hreg n0).2 c1 rho hc0 hc hr0 hr1
    refine ⟨B, fun tol htol => ?_⟩
    obtain ⟨N, hN⟩ := hB tol htol
    refine ⟨N, fun o guess rf eg h1 h2 h3 h4 h5 h6 h7 => ?_⟩
    obtain ⟨sol, hs, hs2⟩ := (hN o guess h1 h2 h3 h4 h6 h7).2 h5 rf eg
    refine ⟨sol, hs, ?_⟩
    have := hanti sol x
    rw [hx, sub_zero] at this
    rcases hs2 with h | h
    · exact (this.trans h).trans (le_max_left _ _)
    · exact (this.trans h).trans (le_max_right _ _)

/-- A hardening spring, `u + u³ = load`: strongly monotone, so the solver converges from every starting point. -/
example (load : ℝ) : ∃ x : ℝ, (∀ y : ℝ, y + y ^ 3 - load = 0 ↔ y = x) ∧ ∀ n0 : ℝ, ∃ B : ℕ, ∀ tol : ℝ, 0 < tol → ∃ N : ℕ,
    ∀ (o : NewtonOpts ℝ) (guess : ℝ) (raiseOnFail eager : Bool),
      o.tol = tol → o.c1 = 1 / 10000 → o.rho = 1 / 2 → B < o.maxBacktracks → N ≤ o.maxIter → 0 < o.tiny →
      ‖guess + guess ^ 3 - load‖ ≤ n0 →
      ∃ sol, newtonForward (exactEnv (fun u : ℝ => u + u ^ 3 - load) (fun u => -(u + u ^ 3 - load) / (1 + 3 * u ^ 2))) o
        raiseOnFail eager guess = .ok sol ∧ 1 * ‖sol - x‖ ≤ max tol (o.relTol * max ‖guess + guess ^ 3 - load‖ o.tiny) := by
  refine C155_strongly_monotone (fun u : ℝ => u + u ^ 3 - load) (by fun_prop) 1 one_pos ?_ _ ?_ (1 / 10000) (1 / 2)
    (by norm_num) (by norm_num) (by norm_num) (by norm_num)
  · intro u w
    simp only [Real.norm_eq_abs, sq_abs, Real.inner_apply]
    nlinarith [mul_nonneg (sq_nonneg (u - w)) (add_nonneg (sq_nonneg (u + w)) (add_nonneg (sq_nonneg u) (sq_nonneg w)))]
  · intro z
    have h : HasDerivAt (fun u : ℝ => u + u ^ 3 - load) (1 + 3 * z ^ 2) z := by
      simpa using ((hasDerivAt_id z).add (hasDerivAt_pow 3 z)).sub_const load
    rw [h.hasFDerivAt.fderiv]
    have : (1 + 3 * z ^ 2 : ℝ) ≠ 0 := by positivity
    simp
    field_simp

end

section
variable {V W : Type*} [NormedAddCommGroup V] [NormedSpace ℝ V] [FiniteDimensional ℝ V]
  [NormedAddCommGroup W] [NormedSpace ℝ W]

/-- A backtracking loop with a trial that decreases the residual ends with one. -/
theorem backtrack_finds {V W : Type*} (E : NewtonEnv ℝ V W) (rho : ℝ) (sol du : V) (rn : Option ℝ) :
    ∀ (m : ℕ) (a : ℝ) (k : ℕ), k < m → flt (E.norm (E.resf (E.axpy sol (a * rho ^ k) du))) rn = true →
      ∃ x n, backtrack E rho sol du rn m a = some (x, n) ∧ flt n rn = true ∧ n = E.norm (E.resf x)
  | 0, _, k, h, _ => absurd h (Nat.not_lt_zero k)
  | m + 1, a, k, h, ht => by
      by_cases h0 : flt (E.norm (E.resf (E.axpy sol a du))) rn = true
      · exact ⟨_, _, by simp only [backtrack]; rw [if_pos h0], h0, rfl⟩
      · cases k with
        | zero => rw [pow_zero, mul_one] at ht; exact absurd ht h0
        | succ k =>
          obtain ⟨x, n, h1, h2⟩ := backtrack_finds E rho sol du rn m (a * rho) k (by omega) (by
            rw [pow_succ'] at ht
            rwa [mul_assoc])
          exact ⟨x, n, by simp only [backtrack]; rw [if_neg h0]; exact h1, h2⟩

/-- C155, host-driven loops: on a regular level set they never stop before the limit of iterations without having converged,
and the residual never grows. They accept any decrease, so nothing more is true: see `C155_host_loops_can_stall`. -/
theorem C155_host_loops_keep_going (F : V → W) (hF : ContDiff ℝ 2 F) (dir : V → V) (n0 : ℝ) (h : Spec.RegularLevel F dir n0)
    (rho : ℝ) (hr0 : 0 < rho) (hr1 : rho < 1) :
    ∃ B : ℕ, ∀ (o : NewtonOpts ℝ) (guess : V) (warns : Bool), 0 < o.tol → o.rho = rho → B < o.maxBacktracks → 0 < o.maxIter →
      ‖F guess‖ ≤ n0 →
      ∃ q, hostSolve (exactEnv F dir) o (fun _ => dir) warns (fun _ => false) guess = .ok q ∧
        q.norm = some ‖F q.sol‖ ∧ ‖F q.sol‖ ≤ ‖F guess‖ ∧ (q.converged = true ∨ q.steps = o.maxIter) := by
  obtain ⟨K, hK, hexp⟩ := level_expansion F hF dir n0 h
  obtain ⟨B, hB⟩ : ∃ B : ℕ, K * |n0| * rho ^ B < 1 / 2 := by
    have h1 : Tendsto (fun k : ℕ => K * |n0| * rho ^ k) atTop (𝓝 (K * |n0| * 0)) :=
      (tendsto_pow_atTop_nhds_zero_of_lt_one hr0.le hr1).const_mul _
    rw [mul_zero] at h1
    exact (h1.eventually (gt_mem_nhds (by norm_num : (0 : ℝ) < 1 / 2))).exists
  have hrB0 : 0 < rho ^ B := by positivity
  have hrB1 : rho ^ B ≤ 1 := pow_le_one₀ hr0.le hr1.le
  refine ⟨B, ?_⟩
  intro o guess warns htol hor hob hmi hg
  have hdec : ∀ z, ‖F z‖ ≤ n0 → 0 < ‖F z‖ → ‖F (z + rho ^ B • dir z)‖ < ‖F z‖ := by
    intro z hz hp
    have h1 := hexp z hz (rho ^ B) hrB0.le hrB1
    have h2 := norm_add_le (F (z + rho ^ B • dir z) - (1 - rho ^ B) • F z) ((1 - rho ^ B) • F z)
    rw [sub_add_cancel, norm_smul, Real.norm_eq_abs, abs_of_nonneg (by linarith)] at h2
    have h4 : K * rho ^ B * ‖F z‖ ≤ 1 / 2 := by
      calc K * rho ^ B * ‖F z‖ ≤ K * rho ^ B * |n0| :=
            mul_le_mul_of_nonneg_left (hz.trans (le_abs_self _)) (by positivity)
        _ = K * |n0| * rho ^ B := by ring
        _ ≤ 1 / 2 := hB.le
    have h3 : K * (rho ^ B) ^ 2 * ‖F z‖ ^ 2 ≤ 1 / 2 * (rho ^ B * ‖F z‖) := by
      calc K * (rho ^ B) ^ 2 * ‖F z‖ ^ 2 = (K * rho ^ B * ‖F z‖) * (rho ^ B * ‖F z‖) := by ring
        _ ≤ _ := mul_le_mul_of_nonneg_right h4 (by positivity)
    nlinarith [mul_pos hrB0 hp]
  have hloop : ∀ (n it : ℕ) (s : V × Option ℝ × ℕ), s.2.1 = some ‖F s.1‖ → ‖F s.1‖ ≤ ‖F guess‖ →
      ∀ s', hostLoop (exactEnv F dir) o (fun _ => dir) (fun _ => false) (some ‖F guess‖) n it s = s' →
      s'.2.1 = some ‖F s'.1‖ ∧ ‖F s'.1‖ ≤ ‖F guess‖ ∧
      ((flt s'.2.1 (some o.tol) ||
        flt (fop (· / ·) s'.2.1 (fop (· + ·) (some ‖F guess‖) (some o.tiny))) (some o.relTol)) = true ∨
        s'.2.2 = s.2.2 + n) := by
    intro n
    induction n with
    | zero =>
      intro it s h1 h2 s' hs'
      simp only [hostLoop] at hs'
      subst hs'
      exact ⟨h1, h2, Or.inr rfl⟩
    | succ n ih =>
      intro it s h1 h2 s' hs'
      simp only [hostLoop] at hs'
      split at hs'
      · rename_i hf
        subst hs'
        exact ⟨h1, h2, Or.inl (by rw [hf]; rfl)⟩
      · rename_i hf
        split at hs'
        · rename_i hg'
          subst hs'
          rw [Bool.and_eq_true] at hg'
          exact ⟨h1, h2, Or.inl (by rw [hg'.2, Bool.or_true])⟩
        · simp only [Bool.false_eq_true, if_false] at hs'
          rw [h1] at hf
          simp only [flt, decide_eq_true_eq, not_lt] at hf
          have hpos : 0 < ‖F s.1‖ := lt_of_lt_of_le htol hf
          obtain ⟨x, m, b1, b2, b3⟩ := backtrack_finds (exactEnv F dir) o.rho s.1 (dir s.1) s.2.1 o.maxBacktracks 1 B hob (by
            rw [h1, hor, one_mul]
            simp only [exactEnv, flt, decide_eq_true_eq]
            exact hdec s.1 (h2.trans hg) hpos)
          rw [b1] at hs'
          simp only at hs'
          have hx : ‖F x‖ < ‖F s.1‖ := by
            rw [b3, h1] at b2
            simpa [exactEnv, flt] using b2
          obtain ⟨c1, c2, c3⟩ := ih (it + 1) (x, m, s.2.2 + 1) b3 (hx.le.trans h2) s' hs'
          refine ⟨c1, c2, c3.imp id ?_⟩
          intro hq
          rw [hq]
          simp only
          omega
  generalize hq : hostLoop (exactEnv F dir) o (fun _ => dir) (fun _ => false) (some ‖F guess‖) o.maxIter 0
    (guess, some ‖F guess‖, 0) = q
  obtain ⟨g1, g2, g3⟩ := hloop o.maxIter 0 (guess, some ‖F guess‖, 0) rfl le_rfl q hq
  refine ⟨⟨q.1, q.2.1, flt q.2.1 (some o.tol) ||
    flt (fop (· / ·) q.2.1 (fop (· + ·) (some ‖F guess‖) (some o.tiny))) (some o.relTol), q.2.2⟩, ?_, g1, g2, ?_⟩
  · have e : (exactEnv F dir).norm ((exactEnv F dir).resf guess) = some ‖F guess‖ := rfl
    have hm : (o.maxIter == 0) = false := by simpa using hmi.ne'
    simp only [hostSolve, e, hq, hm, Bool.and_false, Bool.false_eq_true, if_false]
  · refine g3.imp id ?_
    intro h
    simpa using h

end

/-- The residual of a spring that softens and hardens again, `17u - 7u³ + 2u⁵`. -/
noncomputable def stallF (u : ℝ) : ℝ := 17 * u - 7 * u ^ 3 + 2 * u ^ 5

/-- Its Newton direction. -/
noncomputable def stallDir (u : ℝ) : ℝ := -stallF u / (17 - 21 * u ^ 2 + 10 * u ^ 4)

theorem stall_deriv_pos (u : ℝ) : 2 < 17 - 21 * u ^ 2 + 10 * u ^ 4 := by nlinarith [sq_nonneg (u ^ 2 - 21 / 20)]

theorem stall_monotone (u w : ℝ) : 1 * ‖u - w‖ ^ 2 ≤ inner ℝ (stallF u - stallF w) (u - w) := by
  rw [Real.inner_apply, Real.norm_eq_abs, sq_abs]
  unfold stallF
  have e : (17 * u - 7 * u ^ 3 + 2 * u ^ 5 - (17 * w - 7 * w ^ 3 + 2 * w ^ 5)) * (u - w) =
      (u - w) ^ 2 * (17 - 7 * (u ^ 2 + u * w + w ^ 2) + 2 * (u ^ 4 + u ^ 3 * w + u ^ 2 * w ^ 2 + u * w ^ 3 + w ^ 4)) := by ring
  rw [e, mul_comm]
  refine mul_le_mul_of_nonneg_left ?_ (sq_nonneg _)
  -- with s = u + w, q = u - w
  nlinarith [sq_nonneg (u ^ 2 + w ^ 2 - 2), sq_nonneg (u + w), sq_nonneg (u - w), sq_nonneg (u * w),
    sq_nonneg ((u + w) ^ 2 - 4), sq_nonneg (u ^ 2 - w ^ 2), sq_nonneg (u * w - 1), mul_nonneg (sq_nonneg (u + w)) (sq_nonneg (u - w)),
    sq_nonneg ((u - w) ^ 2)]

theorem stall_newton (z : ℝ) : fderiv ℝ stallF z (stallDir z) = -stallF z := by
  have h : HasDerivAt stallF (17 - 21 * z ^ 2 + 10 * z ^ 4) z := by
    have := ((((hasDerivAt_id z).const_mul 17).sub ((hasDerivAt_pow 3 z).const_mul 7)).add ((hasDerivAt_pow 5 z).const_mul 2))
    exact this.congr_deriv (by push_cast; ring)
  rw [h.hasFDerivAt.fderiv]
  have := stall_deriv_pos z
  have h0 : (17 - 21 * z ^ 2 + 10 * z ^ 4 : ℝ) ≠ 0 := by linarith
  simp only [ContinuousLinearMap.toSpanSingleton_apply, smul_eq_mul, stallDir]
  exact div_mul_cancel₀ _ h0

/-- One full Newton step from a point between 1 and 1.04 lands on the other side, closer to `-1` but still beyond it. -/
theorem stall_step (x : ℝ) (h1 : 1 < x) (h2 : x ≤ 1.04) : -x < x + stallDir x ∧ x + stallDir x < -1 := by
  have hp := stall_deriv_pos x
  have hp0 : 0 < 17 - 21 * x ^ 2 + 10 * x ^ 4 := by linarith
  have e : x + stallDir x = (8 * x ^ 5 - 14 * x ^ 3) / (17 - 21 * x ^ 2 + 10 * x ^ 4) := by
    have h0 := hp0.ne'
    unfold stallDir stallF
    rw [eq_div_iff h0, add_mul, div_mul_cancel₀ _ h0]
    ring
  rw [e]
  constructor
  · rw [lt_div_iff₀ hp0]
    have : 0 < x * ((x ^ 2 - 1) * (18 * x ^ 2 - 17)) := by
      have : 1 < x ^ 2 := by nlinarith
      have h3 : 0 < x ^ 2 - 1 := by linarith
      have h4 : 0 < 18 * x ^ 2 - 17 := by linarith
      positivity
    nlinarith
  · rw [div_lt_iff₀ hp0]
    have hq : 0 < -8 * x ^ 4 - 18 * x ^ 3 - 4 * x ^ 2 + 17 * x + 17 := by
      have a2 : x ^ 2 ≤ 1.0816 := by nlinarith
      have a3 : x ^ 3 ≤ 1.124864 := by nlinarith [sq_nonneg x]
      have a4 : x ^ 4 ≤ 1.16985856 := by nlinarith [sq_nonneg x, sq_nonneg (x ^ 2)]
      norm_num at *
      linarith
    nlinarith [mul_pos (sub_pos.2 h1) hq]

theorem stallF_odd (x : ℝ) : stallF (-x) = -stallF x := by unfold stallF; ring

theorem stallDir_odd (x : ℝ) : stallDir (-x) = -stallDir x := by
  unfold stallDir
  rw [stallF_odd, neg_div]
  have e : (17 - 21 * (-x) ^ 2 + 10 * (-x) ^ 4 : ℝ) = 17 - 21 * x ^ 2 + 10 * x ^ 4 := by ring
  rw [e, neg_div]

theorem stallF_mono : StrictMono stallF := by
  intro a b hab
  have h := stall_monotone b a
  rw [Real.inner_apply, Real.norm_eq_abs, sq_abs, one_mul] at h
  have h0 : 0 < b - a := sub_pos.2 hab
  by_contra hlt
  rw [not_lt] at hlt
  nlinarith [mul_pos h0 h0]

theorem stallF_norm (x : ℝ) : ‖stallF x‖ = stallF |x| := by
  have h0 : stallF 0 = 0 := by unfold stallF; norm_num
  rcases le_total 0 x with h | h
  · have := stallF_mono.monotone h
    rw [abs_of_nonneg h, Real.norm_eq_abs, abs_of_nonneg (by linarith)]
  · have := stallF_mono.monotone h
    rw [abs_of_nonpos h, stallF_odd, Real.norm_eq_abs, abs_of_nonpos (by linarith)]

/-- One full step keeps the modulus between 1 and what it was. -/
theorem stall_abs (x : ℝ) (h1 : 1 < |x|) (h2 : |x| ≤ 1.04) : 1 < |x + stallDir x| ∧ |x + stallDir x| < |x| := by
  rcases le_total 0 x with h | h
  · rw [abs_of_nonneg h] at h1 h2 ⊢
    obtain ⟨a, b⟩ := stall_step x h1 h2
    rw [abs_of_neg (by linarith)]
    constructor <;> linarith
  · rw [abs_of_nonpos h] at h1 h2 ⊢
    obtain ⟨a, b⟩ := stall_step (-x) h1 h2
    rw [stallDir_odd] at a b
    rw [abs_of_pos (by linarith)]
    constructor <;> linarith

/-- C155, limit of the host-driven loops: they accept any decrease of the residual, and this is not enough. For the strongly
monotone residual `17u - 7u³ + 2u⁵`, whose only root is 0 and for which `create_newton_solver` converges from every guess
(`C155_strongly_monotone`), they run from 1.04 for as many iterations as allowed, alternate between neighbourhoods of 1 and of
-1, and end with a residual above 12, not converged. -/
theorem C155_host_loops_can_stall :
    (∀ u w : ℝ, 1 * ‖u - w‖ ^ 2 ≤ inner ℝ (stallF u - stallF w) (u - w)) ∧ (∀ z, fderiv ℝ stallF z (stallDir z) = -stallF z) ∧
    ∀ o : NewtonOpts ℝ, 0 < o.maxBacktracks → o.tol ≤ 12 → o.relTol ≤ 9 / 10 → 0 < o.tiny → o.tiny ≤ 1 / 100 → 0 < o.maxIter →
      ∃ q, hostSolve (exactEnv stallF stallDir) o (fun _ => stallDir) true (fun _ => false) 1.04 = .ok q ∧
        q.converged = false ∧ q.steps = o.maxIter ∧ 12 < ‖stallF q.sol‖ ∧ 1 < |q.sol| := by
  refine ⟨stall_monotone, stall_newton, ?_⟩
  intro o hb htol hrel ht0 ht1 hmi
  have hF1 : stallF 1 = 12 := by unfold stallF; norm_num
  have hbig : ∀ x : ℝ, 1 < |x| → 12 < ‖stallF x‖ := by
    intro x hx
    rw [stallF_norm, ← hF1]
    exact stallF_mono hx
  have hg0 : ‖stallF 1.04‖ + o.tiny ≤ 12.5 := by
    rw [stallF_norm, abs_of_pos (by norm_num)]
    have : stallF 1.04 ≤ 12.4 := by unfold stallF; norm_num
    linarith
  have hg1 : 0 < ‖stallF 1.04‖ + o.tiny := by positivity
  have hnot : ∀ x : ℝ, 1 < |x| → flt (some ‖stallF x‖) (some o.tol) = false ∧
      flt (fop (· / ·) (some ‖stallF x‖) (fop (· + ·) (some ‖stallF 1.04‖) (some o.tiny))) (some o.relTol) = false := by
    intro x hx
    have := hbig x hx
    simp only [flt, fop, decide_eq_false_iff_not, not_lt]
    refine ⟨by linarith, ?_⟩
    rw [le_div_iff₀ hg1]
    nlinarith
  obtain ⟨m, hm⟩ : ∃ m, o.maxBacktracks = m + 1 := ⟨o.maxBacktracks - 1, by omega⟩
  have hloop : ∀ (n it : ℕ) (s : ℝ × Option ℝ × ℕ), s.2.1 = some ‖stallF s.1‖ → 1 < |s.1| → |s.1| ≤ 1.04 →
      ∃ s', hostLoop (exactEnv stallF stallDir) o (fun _ => stallDir) (fun _ => false) (some ‖stallF 1.04‖) n it s = s' ∧
        s'.2.1 = some ‖stallF s'.1‖ ∧ 1 < |s'.1| ∧ s'.2.2 = s.2.2 + n := by
    intro n
    induction n with
    | zero => intro it s h1 h2 h3; exact ⟨s, rfl, h1, h2, rfl⟩
    | succ n ih =>
      intro it s h1 h2 h3
      obtain ⟨a1, a2⟩ := hnot s.1 h2
      obtain ⟨b1, b2⟩ := stall_abs s.1 h2 h3
      have hbt : backtrack (exactEnv stallF stallDir) o.rho s.1 (stallDir s.1) s.2.1 o.maxBacktracks 1 =
          some (s.1 + stallDir s.1, some ‖stallF (s.1 + stallDir s.1)‖) := by
        rw [hm, h1]
        simp only [backtrack, exactEnv, one_smul, flt]
        rw [if_pos]
        simp only [decide_eq_true_eq]
        rw [stallF_norm, stallF_norm]
        exact stallF_mono b2
      obtain ⟨s', c1, c2, c3, c4⟩ := ih (it + 1) (s.1 + stallDir s.1, some ‖stallF (s.1 + stallDir s.1)‖, s.2.2 + 1) rfl b1
        (b2.le.trans h3)
      refine ⟨s', ?_, c2, c3, ?_⟩
      · rw [← c1]
        simp only [hostLoop, hbt]
        rw [h1, a1, a2]
        simp
      · rw [c4]
        simp only
        omega
  obtain ⟨s', c1, c2, c3, c4⟩ := hloop o.maxIter 0 (1.04, some ‖stallF 1.04‖, 0) rfl (by norm_num [abs_of_pos]) (by norm_num [abs_of_pos])
  obtain ⟨a1, a2⟩ := hnot s'.1 c3
  refine ⟨⟨s'.1, s'.2.1, false, s'.2.2⟩, ?_, rfl, by simpa using c4, hbig _ c3, c3⟩
  have e : (exactEnv stallF stallDir).norm ((exactEnv stallF stallDir).resf 1.04) = some ‖stallF 1.04‖ := rfl
  have hmm : (o.maxIter == 0) = false := by simpa using hmi.ne'
  simp only [hostSolve, e, c1, hmm, Bool.and_false, Bool.false_eq_true, if_false, c2, a1, a2, Bool.or_false]

end Verif.Props
