import Mathlib.LinearAlgebra.BilinearForm.Properties
import Mathlib.LinearAlgebra.SesquilinearForm.Basic
import Mathlib.Algebra.QuadraticDiscriminant
import Mathlib.Analysis.Calculus.Deriv.Slope
import Mathlib.Algebra.Order.BigOperators.Group.Finset

/-!
# Displacements in equilibrium depend continuously on the stiffness

Weighted sums of nonnegative symmetric forms: when the weights are positive and continuous and the displacement balances one load along
a path, every form against a fixed displacement is continuous along that path, although the displacement itself need not be unique.
-/

namespace Verif.Lemmas
open Filter Topology

variable {X : Type*} [AddCommGroup X] [Module ℝ X]

theorem form_abs_le (B : X →ₗ[ℝ] X →ₗ[ℝ] ℝ) (hs : ∀ x y, B x y = B y x) (hp : ∀ x, 0 ≤ B x x) (x y : X) :
    |B x y| ≤ (B x x + B y y) / 2 := by
  have h1 := hp (x + y)
  have h2 := hp (x - y)
  simp only [map_add, map_sub, LinearMap.add_apply, LinearMap.sub_apply] at h1 h2
  have := hs x y
  rw [abs_le]; constructor <;> linarith

theorem form_sq_le (B : X →ₗ[ℝ] X →ₗ[ℝ] ℝ) (hs : ∀ x y, B x y = B y x) (hp : ∀ x, 0 ≤ B x x) (x y : X) :
    B x y ^ 2 ≤ B x x * B y y := by
  have h : ∀ c : ℝ, 0 ≤ B y y * (c * c) + 2 * B x y * c + B x x := by
    intro c
    have := hp (x + c • y)
    simp only [map_add, map_smul, LinearMap.add_apply, LinearMap.smul_apply, smul_eq_mul, hs y x] at this
    linarith
  have := discrim_le_zero h
  unfold discrim at this
  linarith

theorem energy_path {ι : Type*} (S : Finset ι) (B : ι → X →ₗ[ℝ] X →ₗ[ℝ] ℝ) (hs : ∀ j x y, B j x y = B j y x)
    (hp : ∀ j x, 0 ≤ B j x x) (E : ℝ → ι → ℝ) (t : ℝ) (hE : ∀ j ∈ S, ContinuousAt (fun s => E s j) t) (hpos : ∀ j ∈ S, 0 < E t j)
    (u : ℝ → X) (hu : ∀ s, ∑ j ∈ S, E s j * B j (u s) (u s - u t) = ∑ j ∈ S, E t j * B j (u t) (u s - u t)) (j : ι) (hj : j ∈ S) (v : X) :
    Tendsto (fun s => B j (u s) v) (𝓝 t) (𝓝 (B j (u t) v)) := by
  set δ : ℝ → ℝ := fun s => ∑ i ∈ S, |E s i - E t i| / E t i with hδ
  have hδ0 : Tendsto δ (𝓝 t) (𝓝 0) := by
    have : Tendsto δ (𝓝 t) (𝓝 (∑ i ∈ S, |E t i - E t i| / E t i)) := by
      refine tendsto_finsetSum S fun i hi => ?_
      exact (((hE i hi).tendsto.sub tendsto_const_nhds).abs).div_const _
    simpa using this
  have hδn : ∀ s, 0 ≤ δ s := fun s => Finset.sum_nonneg fun i hi => div_nonneg (abs_nonneg _) (hpos i hi).le
  have hδi : ∀ s, ∀ i ∈ S, |E s i - E t i| ≤ δ s * E t i := by
    intro s i hi
    rw [← div_le_iff₀ (hpos i hi)]
    exact Finset.single_le_sum (f := fun i => |E s i - E t i| / E t i) (fun i hi => div_nonneg (abs_nonneg _) (hpos i hi).le) hi
  set A : ℝ := ∑ i ∈ S, E t i * B i (u t) (u t) with hA
  have key : ∀ s, δ s ≤ 1 / 3 → ∑ i ∈ S, E t i * B i (u s - u t) (u s - u t) ≤ 2 * δ s * A := by
    intro s hsm
    set w := u s - u t with hw
    have e1 : ∑ i ∈ S, E t i * B i w w = ∑ i ∈ S, (E t i - E s i) * B i (u s) w := by
      have := hu s
      rw [← sub_eq_zero, ← Finset.sum_sub_distrib] at this
      rw [← sub_eq_zero, ← Finset.sum_sub_distrib, ← this]
      refine Finset.sum_congr rfl fun i _ => ?_
      have : B i w w = B i (u s) w - B i (u t) w := by rw [hw]; simp
      rw [this]; ring
    have e2 : ∀ i ∈ S, (E t i - E s i) * B i (u s) w ≤ δ s * (E t i * B i (u t) (u t)) + 3 / 2 * δ s * (E t i * B i w w) := by
      intro i hi
      have a1 : (E t i - E s i) * B i (u s) w ≤ (δ s * E t i) * ((B i (u s) (u s) + B i w w) / 2) := by
        refine (le_abs_self _).trans ?_
        rw [abs_mul, abs_sub_comm]
        exact mul_le_mul (hδi s i hi) (form_abs_le _ (hs i) (hp i) _ _) (abs_nonneg _) (mul_nonneg (hδn s) (hpos i hi).le)
      have a2 : B i (u s) (u s) ≤ 2 * B i (u t) (u t) + 2 * B i w w := by
        have h0 := hp i (u t - w)
        have h1 : u s = u t + w := by rw [hw]; abel
        rw [h1]
        simp only [map_add, map_sub, LinearMap.add_apply, LinearMap.sub_apply] at h0 ⊢
        have := hs i (u t) w
        linarith
      have a3 : (δ s * E t i) * ((B i (u s) (u s) + B i w w) / 2) ≤ (δ s * E t i) * (B i (u t) (u t) + 3 / 2 * B i w w) :=
        mul_le_mul_of_nonneg_left (by linarith) (mul_nonneg (hδn s) (hpos i hi).le)
      linarith
    have e3 : ∑ i ∈ S, E t i * B i w w ≤ δ s * A + 3 / 2 * δ s * ∑ i ∈ S, E t i * B i w w := by
      conv_lhs => rw [e1]
      refine (Finset.sum_le_sum e2).trans (le_of_eq ?_)
      rw [Finset.sum_add_distrib, ← Finset.mul_sum, ← Finset.mul_sum]
    have e4 : 0 ≤ ∑ i ∈ S, E t i * B i w w := Finset.sum_nonneg fun i hi => mul_nonneg (hpos i hi).le (hp i w)
    nlinarith
  have hsq : Tendsto (fun s => (B j (u s - u t) v) ^ 2) (𝓝 t) (𝓝 0) := by
    have hb : Tendsto (fun s => 2 * δ s * A / E t j * B j v v) (𝓝 t) (𝓝 0) := by
      have := (((hδ0.const_mul 2).mul_const A).div_const (E t j)).mul_const (B j v v)
      simpa using this
    refine squeeze_zero' (Eventually.of_forall fun s => sq_nonneg _) ?_ hb
    filter_upwards [hδ0.eventually (ge_mem_nhds (show (0 : ℝ) < 1 / 3 by norm_num))] with s hs3
    refine (form_sq_le (B j) (hs j) (hp j) _ _).trans (mul_le_mul_of_nonneg_right ?_ (hp j v))
    rw [le_div_iff₀ (hpos j hj), mul_comm]
    refine le_trans ?_ (key s hs3)
    exact Finset.single_le_sum (f := fun i => E t i * B i (u s - u t) (u s - u t))
      (fun i hi => mul_nonneg (hpos i hi).le (hp i _)) hj
  have h0 : Tendsto (fun s => B j (u s - u t) v) (𝓝 t) (𝓝 0) := by
    have := hsq.sqrt
    simp only [Real.sqrt_sq_eq_abs, Real.sqrt_zero] at this
    exact (tendsto_zero_iff_abs_tendsto_zero _).mpr this
  have := h0.add_const (B j (u t) v)
  simpa using this

theorem deriv_vanishing_mul {f g : ℝ → ℝ} {f' t : ℝ} (hf : HasDerivAt f f' t) (h0 : f t = 0) (hg : ContinuousAt g t) :
    HasDerivAt (fun s => f s * g s) (f' * g t) t := by
  rw [hasDerivAt_iff_tendsto_slope] at hf ⊢
  have := hf.mul (hg.tendsto.mono_left nhdsWithin_le_nhds)
  refine this.congr fun s => ?_
  simp only [slope_def_field, h0, zero_mul, sub_zero]
  ring

end Verif.Lemmas
