import Verif.Props.NewtonConverge
import Verif.Props.Solve
import Mathlib.Analysis.Calculus.ImplicitFunction.ProdDomain
import Mathlib.Analysis.Calculus.ContDiff.RCLike
import Mathlib.Analysis.Normed.Ring.Units
import Mathlib.Analysis.Calculus.Deriv.Pi
import Mathlib.Analysis.Calculus.Deriv.Add
import Mathlib.Analysis.Calculus.Deriv.Prod
import Mathlib.Topology.Algebra.Module.FiniteDimension
import Mathlib.LinearAlgebra.FiniteDimensional.Lemmas

/-!
# C152: the gradient through a nonlinear solve is the derivative of the solution, up to the tolerance
-/

namespace Verif.Props
open Verif.Model.Newton Filter Topology

namespace Spec

/-- A branch of solutions: `U q` solves the problem with parameter `q`, for parameters near `p`, and passes
through `x`. -/
structure Branch {P V W : Type*} [TopologicalSpace P] [TopologicalSpace V] [Zero W] (F : P × V → W) (p : P) (x : V)
    (U : P → V) : Prop where
  start : U p = x
  cont : ContinuousAt U p
  solves : ∀ᶠ q in 𝓝 p, F (q, U q) = 0

end Spec

section
variable {P V W : Type*} [NormedAddCommGroup P] [NormedSpace ℝ P] [NormedAddCommGroup V] [NormedSpace ℝ V]
  [NormedAddCommGroup W] [NormedSpace ℝ W]

/-- The partial derivatives of a map that is differentiable. -/
theorem partial_fst {F : P × V → W} {p : P} {u : V} (h : DifferentiableAt ℝ F (p, u)) :
    fderiv ℝ (fun q => F (q, u)) p = (fderiv ℝ F (p, u)).comp (.inl ℝ P V) :=
  (h.hasFDerivAt.comp p (hasFDerivAt_prodMk_left p u)).fderiv

theorem partial_snd {F : P × V → W} {p : P} {u : V} (h : DifferentiableAt ℝ F (p, u)) :
    fderiv ℝ (fun w => F (p, w)) u = (fderiv ℝ F (p, u)).comp (.inr ℝ P V) :=
  (h.hasFDerivAt.comp u (hasFDerivAt_prodMk_right p u)).fderiv

variable [CompleteSpace P] [CompleteSpace V] [CompleteSpace W]

/-- C152. Let `x` solve the problem with parameter `p`, let the residual be twice continuously differentiable in
parameter and unknowns there, with invertible derivative in the unknowns. Then there is a branch of solutions
through `x`, every such branch is differentiable, and for any approximate solution `u` near `x` and any adjoint
vector `lam` of the equation at `u`, the gradient `-lam (dF/dp)` at `u` differs from the derivative of the
objective along the branch by at most a constant times the residual of `u`. -/
theorem C152_gradient_within_residual (F : P × V → W) (p : P) (x : V) (A : V ≃L[ℝ] W) (hF : ContDiffAt ℝ 2 F (p, x))
    (hA : fderiv ℝ (fun u => F (p, u)) x = A) (h0 : F (p, x) = 0) :
    (∃ U, Spec.Branch F p x U) ∧ ∃ r C : ℝ, 0 < r ∧ 0 ≤ C ∧ ∀ U, Spec.Branch F p x U →
      ∃ DU : P →L[ℝ] V, HasFDerivAt U DU p ∧ ∀ u, ‖u - x‖ ≤ r → ∀ (v : V →L[ℝ] ℝ) (lam : W →L[ℝ] ℝ),
        lam.comp (fderiv ℝ (fun w => F (p, w)) u) = v →
        ‖-(lam.comp (fderiv ℝ (fun q => F (q, u)) p)) - v.comp DU‖ ≤ C * ‖v‖ * ‖F (p, u)‖ := by
  have hd : DifferentiableAt ℝ F (p, x) := hF.differentiableAt (by norm_num)
  have hstrict : HasStrictFDerivAt F (fderiv ℝ F (p, x)) (p, x) := hF.hasStrictFDerivAt (by norm_num)
  have hinv : ((fderiv ℝ F (p, x)).comp (.inr ℝ P V)).IsInvertible := ⟨A, by rw [← partial_snd hd, hA]⟩
  set ψ := hstrict.implicitFunctionOfProdDomain hinv with hψ
  have hiff := hstrict.eventually_apply_eq_iff_implicitFunctionOfProdDomain hinv
  have hDψ := (hstrict.hasStrictFDerivAt_implicitFunctionOfProdDomain hinv).hasFDerivAt
  have hψx : ψ p = x := (hiff.self_of_nhds).mp rfl
  refine ⟨⟨ψ, hψx, hDψ.continuousAt, ?_⟩, ?_⟩
  · have := hstrict.eventually_apply_implicitFunctionOfProdDomain hinv
    rwa [h0] at this
  -- constants
  have hG : ContDiffAt ℝ 2 (fun u => F (p, u)) x := hF.comp x (contDiffAt_const.prodMk contDiffAt_id)
  obtain ⟨r1, G, Λ, hr1, -, hΛ, hreg, -⟩ := regular_near (fun u => F (p, u)) x A hG hA h0
  obtain ⟨γ, t, ht, hγ⟩ := (hF.fderiv_right (m := 1) (by norm_num)).exists_lipschitzOnWith
  have hdiff : ∀ᶠ z in 𝓝 (p, x), DifferentiableAt ℝ F z :=
    ((hF.of_le (by norm_num : (1 : WithTop ℕ∞) ≤ 2)).eventually (by simp)).mono
      fun z hz => hz.differentiableAt one_ne_zero
  have hcont : ContinuousAt (fun u => fderiv ℝ (fun w => F (p, w)) u) x :=
    (hG.fderiv_right (m := 1) (by norm_num)).continuousAt
  have hequiv : ∀ᶠ u in 𝓝 x, ∃ B : V ≃L[ℝ] W, fderiv ℝ (fun w => F (p, w)) u = B := by
    have h1 := ContinuousLinearEquiv.nhds A
    rw [← hA] at h1
    exact (hcont.eventually h1).mono fun u ⟨B, hB⟩ => ⟨B, hB.symm⟩
  have hline : Tendsto (fun u : V => (p, u)) (𝓝 x) (𝓝 (p, x)) := (by fun_prop : Continuous fun u : V => (p, u)).tendsto x
  obtain ⟨ρ, hρ, hball⟩ := Metric.eventually_nhds_iff_ball.1
    ((hline.eventually (hdiff.and ht)).and hequiv)
  set r := min r1 (ρ / 2) with hr
  have hxin : (p, x) ∈ t := mem_of_mem_nhds ht
  set DU : P →L[ℝ] V := -(((fderiv ℝ F (p, x)).comp (.inr ℝ P V)).inverse.comp ((fderiv ℝ F (p, x)).comp (.inl ℝ P V))) with hDU
  refine ⟨r, Λ * γ * Λ * (1 + ‖DU‖), by positivity, by positivity, ?_⟩
  intro U hU
  have hUeq : U =ᶠ[𝓝 p] ψ := by
    have h1 : Tendsto (fun q => (q, U q)) (𝓝 p) (𝓝 (p, x)) := by
      have := (continuousAt_id (x := p)).prodMk hU.cont
      unfold ContinuousAt at this
      simpa [hU.start] using this
    filter_upwards [h1.eventually hiff, hU.solves] with q h2 h3
    exact ((h2.mp (by rw [h3, h0])).symm)
  refine ⟨DU, ?_, ?_⟩
  · refine HasFDerivAt.congr_of_eventuallyEq ?_ hUeq
    rw [hDU]
    convert hDψ using 1
  intro u hu v lam hlam
  have hub : u ∈ Metric.ball x ρ := by
    rw [Metric.mem_ball, dist_eq_norm]
    have := hu.trans (min_le_right r1 (ρ / 2))
    linarith
  obtain ⟨⟨hud, hut⟩, B, hB⟩ := hball u hub
  obtain ⟨i1, -, i3⟩ := hreg u (hu.trans (min_le_left _ _))
  -- the derivative of the branch satisfies the linearised equation
  have hlinz : (fderiv ℝ F (p, x)).comp (.inl ℝ P V) + ((fderiv ℝ F (p, x)).comp (.inr ℝ P V)).comp DU = 0 := by
    obtain ⟨A', hA'⟩ := hinv
    rw [hDU, ← hA']
    ext q
    simp
  have hlamn : ‖lam‖ ≤ Λ * ‖v‖ := by
    refine ContinuousLinearMap.opNorm_le_bound _ (by positivity) fun w => ?_
    have e1 : w = fderiv ℝ (fun w => F (p, w)) u (B.symm w) := by rw [hB]; simp
    have e2 : lam w = v (B.symm w) := by
      rw [← hlam]
      conv_lhs => rw [e1]
      rfl
    rw [e2]
    refine (v.le_opNorm _).trans ?_
    have e3 := i1 (B.symm w)
    rw [← e1] at e3
    calc ‖v‖ * ‖B.symm w‖ ≤ ‖v‖ * (Λ * ‖w‖) := mul_le_mul_of_nonneg_left e3 (norm_nonneg _)
      _ = Λ * ‖v‖ * ‖w‖ := by ring
  set D : P × V →L[ℝ] W := fderiv ℝ F (p, u) - fderiv ℝ F (p, x) with hD
  have hDn : ‖D‖ ≤ γ * (Λ * ‖F (p, u)‖) := by
    have h1 := hγ.dist_le_mul (p, u) hut (p, x) hxin
    rw [dist_eq_norm, dist_eq_norm] at h1
    have h2 : ‖((p, u) : P × V) - (p, x)‖ = ‖u - x‖ := by
      rw [Prod.mk_sub_mk, sub_self, Prod.norm_mk, norm_zero, max_eq_right (norm_nonneg _)]
    rw [h2] at h1
    exact h1.trans (mul_le_mul_of_nonneg_left i3 γ.2)
  have hkey : -(lam.comp (fderiv ℝ (fun q => F (q, u)) p)) - v.comp DU
      = -(lam.comp (D.comp ((ContinuousLinearMap.id ℝ P).prod DU))) := by
    rw [partial_fst hud, ← hlam, partial_snd hud]
    ext q
    have h3 := congrArg (fun T : P →L[ℝ] W => lam (T q)) hlinz
    have e : ∀ (T : P × V →L[ℝ] W) (a : P) (b : V), T (a, b) = T (a, 0) + T (0, b) := by
      intro T a b
      rw [← map_add]
      simp
    simp only [add_apply, ContinuousLinearMap.comp_apply, ContinuousLinearMap.inl_apply,
      ContinuousLinearMap.inr_apply, zero_apply, map_add, map_zero] at h3
    simp only [sub_apply, neg_apply, ContinuousLinearMap.comp_apply,
      ContinuousLinearMap.inl_apply, ContinuousLinearMap.inr_apply, ContinuousLinearMap.prod_apply,
      ContinuousLinearMap.id_apply, hD, map_sub]
    rw [e (fderiv ℝ F (p, u)) q (DU q), e (fderiv ℝ F (p, x)) q (DU q), map_add, map_add]
    linarith
  rw [hkey, norm_neg]
  have hpn : ‖(ContinuousLinearMap.id ℝ P).prod DU‖ ≤ 1 + ‖DU‖ := by
    refine ContinuousLinearMap.opNorm_le_bound _ (by positivity) fun q => ?_
    rw [ContinuousLinearMap.prod_apply, Prod.norm_mk]
    refine max_le ?_ ?_
    · simp only [ContinuousLinearMap.id_apply]
      nlinarith [norm_nonneg q, norm_nonneg DU, mul_nonneg (norm_nonneg DU) (norm_nonneg q)]
    · have := DU.le_opNorm q
      nlinarith [norm_nonneg q]
  calc ‖lam.comp (D.comp ((ContinuousLinearMap.id ℝ P).prod DU))‖
      ≤ ‖lam‖ * (‖D‖ * ‖(ContinuousLinearMap.id ℝ P).prod DU‖) :=
        (ContinuousLinearMap.opNorm_comp_le _ _).trans
          (mul_le_mul_of_nonneg_left (ContinuousLinearMap.opNorm_comp_le _ _) (norm_nonneg _))
    _ ≤ (Λ * ‖v‖) * ((γ * (Λ * ‖F (p, u)‖)) * (1 + ‖DU‖)) := by gcongr
    _ = Λ * γ * Λ * (1 + ‖DU‖) * ‖v‖ * ‖F (p, u)‖ := by ring

/-- C152, what the caller gets: near a regular solution the solver returns, without raising, and the gradient
its reverse rule computes at the returned point, whatever objective, misses the derivative of the objective
along the branch of solutions by at most a constant times the tolerance. -/
theorem C152_solver_gradient (F : P × V → W) (p : P) (x : V) (A : V ≃L[ℝ] W) (hF : ContDiffAt ℝ 2 F (p, x))
    (hA : fderiv ℝ (fun u => F (p, u)) x = A) (h0 : F (p, x) = 0) (dir : V → V)
    (hd : ∀ᶠ z in 𝓝 x, fderiv ℝ (fun u => F (p, u)) z (dir z) = -F (p, z)) (U : P → V) (hU : Spec.Branch F p x U) :
    ∃ (r C : ℝ) (DU : P →L[ℝ] V), 0 < r ∧ HasFDerivAt U DU p ∧ ∀ tol : ℝ, 0 < tol → ∃ N : ℕ,
      ∀ (o : NewtonOpts ℝ) (guess : V) (raiseOnFail eager : Bool),
      o.tol = tol → o.c1 ≤ 3 / 8 → 0 < o.maxBacktracks → 0 < o.tiny → N ≤ o.maxIter → ‖guess - x‖ ≤ r →
      ∃ sol, newtonForward (exactEnv (fun u => F (p, u)) dir) o raiseOnFail eager guess = .ok sol ∧
        ∀ (v : V →L[ℝ] ℝ) (lam : W →L[ℝ] ℝ), lam.comp (fderiv ℝ (fun w => F (p, w)) sol) = v →
        ‖-(lam.comp (fderiv ℝ (fun q => F (q, sol)) p)) - v.comp DU‖ ≤
          C * ‖v‖ * max tol (o.relTol * max ‖F (p, guess)‖ o.tiny) := by
  obtain ⟨-, r1, C, hr1, hC, hgrad⟩ := C152_gradient_within_residual F p x A hF hA h0
  obtain ⟨DU, hDU, hgrad⟩ := hgrad U hU
  have hG : ContDiffAt ℝ 2 (fun u => F (p, u)) x := hF.comp x (contDiffAt_const.prodMk contDiffAt_id)
  obtain ⟨r2, C2, Λ, hr2, hall⟩ := C151_quadratic_convergence (fun u => F (p, u)) dir x A hG hA h0 hd
  obtain ⟨r3, Λ3, hr3, hsol⟩ := C151_solver_converges (fun u => F (p, u)) dir x A hG hA h0 hd
  refine ⟨min r1 (min r2 r3) / (1 + |Λ| * |Λ|), C, DU, by positivity, hDU, ?_⟩
  intro tol htol
  obtain ⟨N, hN⟩ := hsol tol htol
  refine ⟨N, ?_⟩
  intro o guess rf eg h1 h2 h3 h4 h5 hg
  have hΛ1 : 1 ≤ 1 + |Λ| * |Λ| := by nlinarith [mul_nonneg (abs_nonneg Λ) (abs_nonneg Λ)]
  have hm : 0 < min r1 (min r2 r3) := by positivity
  have hgm : ‖guess - x‖ ≤ min r1 (min r2 r3) := hg.trans (div_le_self hm.le hΛ1)
  obtain ⟨sol, e1, e2, -, -, -⟩ := hN o guess rf eg h1 h2 h3 h4 h5
    (hgm.trans ((min_le_right _ _).trans (min_le_right _ _)))
  refine ⟨sol, e1, ?_⟩
  -- the returned point is no further from the solution than the guess, up to the constants
  obtain ⟨hreach, hfin⟩ := hall o guess h2 h3 (hgm.trans ((min_le_right _ _).trans (min_le_left _ _)))
  have hsolfin : sol = (newtonFinal (exactEnv (fun u => F (p, u)) dir) o guess).sol := by
    have hf := (hreach _ hfin).1
    simp only [newtonForward, hf] at e1
    simpa using e1.symm
  have hmono : ∀ s, Reach (exactEnv (fun u => F (p, u)) dir) o guess s → ‖F (p, s.sol)‖ ≤ ‖F (p, guess)‖ := by
    intro s hs
    induction hs with
    | init => exact le_refl _
    | step s hs _ ih =>
      have := (hreach s hs).2.2.2.2.2.2
      have n0 := norm_nonneg (F (p, s.sol))
      linarith
  have hdist : ‖sol - x‖ ≤ r1 := by
    obtain ⟨-, -, -, g4, -⟩ := hreach _ hfin
    obtain ⟨-, -, g3, -⟩ := hreach _ Reach.init
    rw [← hsolfin] at g4
    have hm2 := hmono _ hfin
    rw [← hsolfin] at hm2
    simp only at g3
    have hg0 := norm_nonneg (guess - x)
    calc ‖sol - x‖ ≤ |Λ| * ‖F (p, sol)‖ := g4.trans (mul_le_mul_of_nonneg_right (le_abs_self _) (norm_nonneg _))
      _ ≤ |Λ| * (|Λ| * ‖guess - x‖) := mul_le_mul_of_nonneg_left
          (hm2.trans (g3.trans (mul_le_mul_of_nonneg_right (le_abs_self _) hg0))) (abs_nonneg _)
      _ ≤ (1 + |Λ| * |Λ|) * ‖guess - x‖ := by nlinarith
      _ ≤ (1 + |Λ| * |Λ|) * (min r1 (min r2 r3) / (1 + |Λ| * |Λ|)) := mul_le_mul_of_nonneg_left hg (by linarith)
      _ = min r1 (min r2 r3) := by field_simp
      _ ≤ r1 := min_le_left _ _
  intro v lam hlam
  refine (hgrad sol hdist v lam hlam).trans (mul_le_mul_of_nonneg_left ?_ (by positivity))
  rcases e2 with e | e
  · exact e.trans (le_max_left _ _)
  · exact e.trans (le_max_right _ _)

end

section
open Verif.Model

/-- A linear functional given by a list of coefficients. -/
noncomputable def dotWith (n : ℕ) (l : List ℝ) : (Fin n → ℝ) →L[ℝ] ℝ :=
  ∑ i : Fin n, (l.getD i 0) • ContinuousLinearMap.proj i

theorem dotWith_apply (n : ℕ) (l : List ℝ) (w : Fin n → ℝ) : dotWith n l w = ∑ i : Fin n, l.getD i 0 * w i := by
  simp [dotWith]

theorem dotWith_norm (n : ℕ) (l : List ℝ) : ‖dotWith n l‖ ≤ ∑ j : Fin n, |l.getD j 0| := by
  refine ContinuousLinearMap.opNorm_le_bound _ (Finset.sum_nonneg fun _ _ => abs_nonneg _) fun w => ?_
  rw [dotWith_apply, Finset.sum_mul]
  refine (norm_sum_le _ _).trans (Finset.sum_le_sum fun i _ => ?_)
  rw [norm_mul, Real.norm_eq_abs]
  exact mul_le_mul_of_nonneg_left (norm_le_pi_norm w i) (abs_nonneg _)

variable {α β : Type*}

/-- The residual with the boundary rows replaced, as a map of a parameter and the unknowns. -/
def residualMap (n : ℕ) (d : ℝ → Discretization ℝ α β) (bc : ℝ → DirichletBC ℝ) (z : ℝ × (Fin n → ℝ)) : Fin n → ℝ :=
  fun i => ((d z.1).resBc (bc z.1) (List.ofFn z.2)).getD i 0

namespace Spec

/-- A problem that depends on a number: the size and the constrained unknowns stay, the kernels, the data and the
prescribed values may change. The assembled tangent is the derivative of the residual. -/
structure Family (n : ℕ) (d : ℝ → Discretization ℝ α β) (bc : ℝ → DirichletBC ℝ) (x : Fin n → ℝ) : Prop where
  size : ∀ t, (d t).p.n = n
  ok : ∀ t, DiscOK (d t)
  canonical : ∀ t, CanonicalBC n (bc t)
  used : UsedBC (d 0) (bc 0)
  rows : ∀ t, (bc t).rows = (bc 0).rows
  smooth : ContDiffAt ℝ 2 (residualMap n d bc) (0, x)
  tangent : ∀ᶠ u in 𝓝 x, ∀ i j : Fin n, (i : ℕ) ∉ (bc 0).rows →
    HasDerivAt (fun s => ((d 0).residualAt (List.ofFn (Function.update u j s))).getD i 0)
      (tangentAt (d 0) (List.ofFn u) i j) (u j)
  regular : ∀ w : Fin n → ℝ, (∀ i : Fin n, ∑ j : Fin n,
    Verif.Spec.rowEliminated (bc 0).rows (tangentAt (d 0) (List.ofFn x)) i j * w j = 0) → w = 0

end Spec

theorem residualMap_free {n : ℕ} {d : ℝ → Discretization ℝ α β} {bc : ℝ → DirichletBC ℝ} {x : Fin n → ℝ}
    (h : Spec.Family n d bc x) (t : ℝ) (u : Fin n → ℝ) (i : Fin n) (hi : (i : ℕ) ∉ (bc 0).rows) :
    residualMap n d bc (t, u) i = ((d t).residualAt (List.ofFn u)).getD i 0 := by
  have hl : ((d t).residualAt (List.ofFn u)).length = n := by rw [residualAt_length (h.ok t), h.size]
  exact (C13_boundary_residual n (bc t) (h.canonical t) _ (List.ofFn u) 1 hl).2.2 i (by rwa [h.rows t])

theorem residualMap_fixed {n : ℕ} {d : ℝ → Discretization ℝ α β} {bc : ℝ → DirichletBC ℝ} {x : Fin n → ℝ}
    (h : Spec.Family n d bc x) (t : ℝ) (u : Fin n → ℝ) (k : ℕ) (hk : k < (bc 0).rows.length) (i : Fin n)
    (hi : (bc 0).rows.getD k 0 = i) :
    residualMap n d bc (t, u) i = u i - (bc t).vals.getD k 0 := by
  have hl : ((d t).residualAt (List.ofFn u)).length = n := by rw [residualAt_length (h.ok t), h.size]
  have := (C13_boundary_residual n (bc t) (h.canonical t) _ (List.ofFn u) 1 hl).2.1 k (by rwa [h.rows t])
  rw [h.rows t, hi] at this
  rw [one_mul] at this
  rw [show u i = (List.ofFn u).getD i 0 by simp]
  exact this

/-- The derivative of the residual in the unknowns, entry by entry. -/
theorem residualMap_deriv {n : ℕ} {d : ℝ → Discretization ℝ α β} {bc : ℝ → DirichletBC ℝ} {x : Fin n → ℝ}
    (h : Spec.Family n d bc x) (u : Fin n → ℝ) (hd : DifferentiableAt ℝ (residualMap n d bc) (0, u))
    (ht : ∀ i j : Fin n, (i : ℕ) ∉ (bc 0).rows →
      HasDerivAt (fun s => ((d 0).residualAt (List.ofFn (Function.update u j s))).getD i 0)
        (tangentAt (d 0) (List.ofFn u) i j) (u j)) (i j : Fin n) :
    fderiv ℝ (fun w => residualMap n d bc (0, w)) u (Pi.single j 1) i =
      Spec.rowEliminated (bc 0).rows (tangentAt (d 0) (List.ofFn u)) i j := by
  have hdu : DifferentiableAt ℝ (fun w => residualMap n d bc (0, w)) u :=
    (hd.hasFDerivAt.comp u (hasFDerivAt_prodMk_right 0 u)).differentiableAt
  have hup : HasDerivAt (fun s => Function.update u j s) (Pi.single j 1) (u j) := hasDerivAt_update u j (u j)
  have h1 : HasDerivAt (fun s => residualMap n d bc (0, Function.update u j s))
      (fderiv ℝ (fun w => residualMap n d bc (0, w)) u (Pi.single j 1)) (u j) := by
    have : HasFDerivAt (fun w => residualMap n d bc (0, w)) (fderiv ℝ (fun w => residualMap n d bc (0, w)) u)
        (Function.update u j (u j)) := by
      rw [Function.update_eq_self]
      exact hdu.hasFDerivAt
    exact this.comp_hasDerivAt (u j) hup
  have h2 := hasDerivAt_pi.1 h1 i
  by_cases hi : (i : ℕ) ∈ (bc 0).rows
  · obtain ⟨k, hk, e⟩ := mem_rows_getD (h.canonical 0) hi
    have e2 : (fun s => residualMap n d bc (0, Function.update u j s) i) =
        fun s => Function.update u j s i - (bc 0).vals.getD k 0 := by
      funext s
      exact residualMap_fixed h 0 _ k hk i e
    rw [e2] at h2
    have h3 := (hasDerivAt_pi.1 hup i).sub_const ((bc 0).vals.getD k 0)
    rw [h2.unique h3]
    unfold Spec.rowEliminated
    rw [if_pos hi, Pi.single_apply]
    simp [Fin.ext_iff]
  · have e2 : (fun s => residualMap n d bc (0, Function.update u j s) i) =
        fun s => ((d 0).residualAt (List.ofFn (Function.update u j s))).getD i 0 := by
      funext s
      exact residualMap_free h 0 _ i hi
    rw [e2] at h2
    rw [h2.unique (ht i j hi)]
    unfold Spec.rowEliminated
    rw [if_neg hi]

/-- The cotangents of the prescribed values, summed over all unknowns. -/
theorem bcVals_sum {n : ℕ} {bc : DirichletBC ℝ} (hbc : CanonicalBC n bc) (lam : List ℝ) (dvals w : ℕ → ℝ)
    (hw : ∀ k < bc.rows.length, w (bc.rows.getD k 0) = dvals k) :
    ∑ k ∈ Finset.range bc.rows.length, (bcValsCotangent bc lam).getD k 0 * dvals k =
      ∑ i ∈ Finset.range n, if i ∈ bc.rows then lam.getD i 0 * w i else 0 := by
  have hnd : bc.rows.Nodup := hbc.sorted.imp (fun h => Nat.ne_of_lt h)
  rw [← Finset.sum_filter]
  refine Finset.sum_bij (fun k _ => bc.rows.getD k 0) ?_ ?_ ?_ ?_
  · intro k hk
    have hm := rows_getD_mem bc (k := k) (by simpa using hk)
    exact Finset.mem_filter.mpr ⟨Finset.mem_range.mpr (hbc.lt _ hm), hm⟩
  · intro a ha b hb e
    have ha' : a < bc.rows.length := by simpa using ha
    have hb' : b < bc.rows.length := by simpa using hb
    rw [List.getD_eq_getElem _ _ ha', List.getD_eq_getElem _ _ hb'] at e
    exact (List.Nodup.getElem_inj_iff hnd).mp e
  · intro j hj
    obtain ⟨k, hk, e⟩ := mem_rows_getD hbc (Finset.mem_filter.mp hj).2
    exact ⟨k, Finset.mem_range.mpr hk, e⟩
  · intro k hk
    have hk' : k < bc.rows.length := by simpa using hk
    rw [hw k hk']
    congr 1
    unfold bcValsCotangent gather
    rw [List.getD_eq_getElem _ _ (by simpa using hk'), List.getElem_map, List.getElem_map, neg_neg,
      List.getD_eq_getElem bc.rows _ hk']

/-- The gradient made from any solution of the transposed system. -/
theorem discrete_gradient {n : ℕ} {d : ℝ → Discretization ℝ α β} {bc : ℝ → DirichletBC ℝ} {x : Fin n → ℝ}
    (h : Spec.Family n d bc x) (h0 : residualMap n d bc (0, x) = 0) :
    (∃ U, Spec.Branch (residualMap n d bc) 0 x U) ∧ ∃ r C : ℝ, 0 < r ∧ 0 ≤ C ∧ ∀ U, Spec.Branch (residualMap n d bc) 0 x U →
      ∃ dU : Fin n → ℝ, (∀ j, HasDerivAt (fun t => U t j) (dU j) 0) ∧
      ∀ (u : Fin n → ℝ) (v lam : List ℝ), ‖u - x‖ ≤ r →
        (∀ j < n, ∑ i ∈ Finset.range n, Spec.rowEliminated (bc 0).rows (tangentAt (d 0) (List.ofFn u)) i j * lam.getD i 0 = v.getD j 0) →
        ∀ dres dvals : ℕ → ℝ,
        (∀ i < n, i ∉ (bc 0).rows → HasDerivAt (fun t => ((d t).residualAt (List.ofFn u)).getD i 0) (dres i) 0) →
        (∀ k < (bc 0).rows.length, HasDerivAt (fun t => (bc t).vals.getD k 0) (dvals k) 0) →
        |(-(∑ i ∈ Finset.range n, if i ∈ (bc 0).rows then 0 else lam.getD i 0 * dres i)
            + ∑ k ∈ Finset.range (bc 0).rows.length, (bcValsCotangent (bc 0) lam).getD k 0 * dvals k)
          - ∑ j : Fin n, v.getD j 0 * dU j| ≤ C * (∑ j : Fin n, |v.getD j 0|) * ‖residualMap n d bc (0, u)‖ := by
  have hdx : DifferentiableAt ℝ (residualMap n d bc) (0, x) := h.smooth.differentiableAt (by norm_num)
  -- the derivative in the unknowns is invertible
  set L := fderiv ℝ (fun w => residualMap n d bc (0, w)) x with hL
  have hexp : ∀ (T : (Fin n → ℝ) →L[ℝ] (Fin n → ℝ)) (w : Fin n → ℝ) (i : Fin n), T w i = ∑ j, T (Pi.single j 1) i * w j := by
    intro T w i
    conv_lhs => rw [← Finset.univ_sum_single w]
    rw [map_sum, Finset.sum_apply]
    refine Finset.sum_congr rfl fun j _ => ?_
    have : (Pi.single j (w j) : Fin n → ℝ) = w j • Pi.single j 1 := by
      rw [← Pi.single_smul, smul_eq_mul, mul_one]
    rw [this, map_smul, Pi.smul_apply, smul_eq_mul, mul_comm]
  have hLinj : Function.Injective (L : (Fin n → ℝ) →ₗ[ℝ] (Fin n → ℝ)) := by
    rw [injective_iff_map_eq_zero]
    intro w hw
    refine h.regular w fun i => ?_
    have h1 : L w i = 0 := congrFun hw i
    rw [hexp] at h1
    refine Eq.trans (Finset.sum_congr rfl fun j _ => ?_) h1
    rw [hL, residualMap_deriv h x hdx h.tangent.self_of_nhds i j]
  set A : (Fin n → ℝ) ≃L[ℝ] (Fin n → ℝ) := (LinearEquiv.ofInjectiveEndo (L : (Fin n → ℝ) →ₗ[ℝ] (Fin n → ℝ)) hLinj).toContinuousLinearEquiv with hAdef
  have hA : L = A := by
    ext1 w
    rfl
  obtain ⟨hex, r1, C, hr1, hC, hgrad⟩ := C152_gradient_within_residual (residualMap n d bc) 0 x A h.smooth hA h0
  refine ⟨hex, ?_⟩
  have hdiff : ∀ᶠ z in 𝓝 ((0 : ℝ), x), DifferentiableAt ℝ (residualMap n d bc) z :=
    ((h.smooth.of_le (by norm_num : (1 : WithTop ℕ∞) ≤ 2)).eventually (by simp)).mono
      fun z hz => hz.differentiableAt one_ne_zero
  have hline : Tendsto (fun u : Fin n → ℝ => ((0 : ℝ), u)) (𝓝 x) (𝓝 (0, x)) :=
    (by fun_prop : Continuous fun u : Fin n → ℝ => ((0 : ℝ), u)).tendsto x
  obtain ⟨ρ, hρ, hball⟩ := Metric.eventually_nhds_iff_ball.1 ((hline.eventually hdiff).and h.tangent)
  refine ⟨min r1 (ρ / 2), C, by positivity, hC, ?_⟩
  intro U hU
  obtain ⟨DU, hDU, hgrad⟩ := hgrad U hU
  refine ⟨DU 1, fun j => hasDerivAt_pi.1 hDU.hasDerivAt j, ?_⟩
  intro u v lam hu hadj dres dvals hres hvals
  obtain ⟨hud, htan⟩ := hball u (by
    rw [Metric.mem_ball, dist_eq_norm]
    have := hu.trans (min_le_right r1 (ρ / 2))
    linarith)
  have hcomp : (dotWith n lam).comp (fderiv ℝ (fun w => residualMap n d bc (0, w)) u) = dotWith n v := by
    ext1 w
    rw [ContinuousLinearMap.comp_apply, dotWith_apply, dotWith_apply]
    simp only [hexp (fderiv ℝ (fun w => residualMap n d bc (0, w)) u) w, Finset.mul_sum]
    rw [Finset.sum_comm]
    refine Finset.sum_congr rfl fun j _ => ?_
    rw [← hadj j j.2, Finset.sum_range, Finset.sum_mul]
    refine Finset.sum_congr rfl fun i _ => ?_
    rw [residualMap_deriv h u hud htan i j]
    ring
  have hmain := hgrad u (hu.trans (min_le_left _ _)) (dotWith n v) (dotWith n lam) hcomp
  -- the derivative in the parameter
  have hpar : HasDerivAt (fun t => residualMap n d bc (t, u)) (fderiv ℝ (fun t => residualMap n d bc (t, u)) 0 1) 0 := by
    have h1 : DifferentiableAt ℝ (fun t : ℝ => residualMap n d bc (t, u)) 0 := by
      have h2 := hud.hasFDerivAt.comp (0 : ℝ) (hasFDerivAt_prodMk_left (𝕜 := ℝ) (0 : ℝ) u)
      exact h2.differentiableAt
    exact h1.hasFDerivAt.hasDerivAt
  set D := fderiv ℝ (fun t => residualMap n d bc (t, u)) 0 with hD
  have hDfree : ∀ i : Fin n, (i : ℕ) ∉ (bc 0).rows → D 1 i = dres i := by
    intro i hi
    have h1 := hasDerivAt_pi.1 hpar i
    have e : (fun t => residualMap n d bc (t, u) i) = fun t => ((d t).residualAt (List.ofFn u)).getD i 0 := by
      funext t
      exact residualMap_free h t u i hi
    rw [e] at h1
    exact h1.unique (hres i i.2 hi)
  have hDfix : ∀ k < (bc 0).rows.length, ∀ i : Fin n, (bc 0).rows.getD k 0 = i → D 1 i = -dvals k := by
    intro k hk i hi
    have h1 := hasDerivAt_pi.1 hpar i
    have e : (fun t => residualMap n d bc (t, u) i) = fun t => u i - (bc t).vals.getD k 0 := by
      funext t
      exact residualMap_fixed h t u k hk i hi
    rw [e] at h1
    exact h1.unique ((hvals k hk).const_sub (u i))
  have hsum : -(∑ i ∈ Finset.range n, if i ∈ (bc 0).rows then 0 else lam.getD i 0 * dres i)
      + ∑ k ∈ Finset.range (bc 0).rows.length, (bcValsCotangent (bc 0) lam).getD k 0 * dvals k
      = -(dotWith n lam (D 1)) := by
    rw [bcVals_sum (h.canonical 0) lam dvals (fun i => if hi : i < n then -(D 1 ⟨i, hi⟩) else 0) (fun k hk => by
        have hlt : (bc 0).rows.getD k 0 < n := (h.canonical 0).lt _ (rows_getD_mem (bc 0) hk)
        rw [dif_pos hlt, hDfix k hk ⟨_, hlt⟩ rfl, neg_neg]),
      dotWith_apply, Finset.sum_range, Finset.sum_range, ← Finset.sum_neg_distrib, ← Finset.sum_add_distrib,
      ← Finset.sum_neg_distrib]
    refine Finset.sum_congr rfl fun i _ => ?_
    by_cases hi : (i : ℕ) ∈ (bc 0).rows
    · rw [if_pos hi, if_pos hi, dif_pos i.2]
      ring
    · rw [if_neg hi, if_neg hi, hDfree i hi]
      ring
  have hone : (-((dotWith n lam).comp D) - (dotWith n v).comp DU) (1 : ℝ) =
      -(dotWith n lam (D 1)) - ∑ j : Fin n, v.getD j 0 * DU 1 j := by
    rw [← dotWith_apply]
    rfl
  rw [hsum, ← hone]
  have := (-((dotWith n lam).comp D) - (dotWith n v).comp DU).le_opNorm (1 : ℝ)
  rw [norm_one, mul_one, Real.norm_eq_abs] at this
  refine this.trans (hmain.trans ?_)
  exact mul_le_mul_of_nonneg_right (mul_le_mul_of_nonneg_left (dotWith_norm n v) hC) (norm_nonneg _)

/-- C152 for the discretised problem: what the reverse rule of the Newton solver returns for a parameter, through
the kernels and through the prescribed values, for both eliminations and both operator kinds. -/
theorem C152_discrete_gradient {n : ℕ} {d : ℝ → Discretization ℝ α β} {bc : ℝ → DirichletBC ℝ} {x : Fin n → ℝ}
    (h : Spec.Family n d bc x) (h0 : residualMap n d bc (0, x) = 0) :
    (∃ U, Spec.Branch (residualMap n d bc) 0 x U) ∧ ∃ r C : ℝ, 0 < r ∧ 0 ≤ C ∧ ∀ U, Spec.Branch (residualMap n d bc) 0 x U →
      ∃ dU : Fin n → ℝ, (∀ j, HasDerivAt (fun t => U t j) (dU j) 0) ∧
      ∀ (u : Fin n → ℝ) (v : List ℝ) (backend : Backend ℝ) (direct symmetric : Bool), ‖u - x‖ ≤ r →
        (direct = true → (d 0).p.view = .full) →
        (direct = false → symmetric = true → ∀ i < n, ∀ j < n,
          tangentAt (d 0) (List.ofFn u) i j = tangentAt (d 0) (List.ofFn u) j i) →
        (∀ b x0, Spec.Solves (d 0).p.view n ((d 0).adjointOp (bc 0) direct symmetric (List.ofFn u)) b
          (backend ((d 0).adjointOp (bc 0) direct symmetric (List.ofFn u)) b x0)) →
        ∀ dres dvals : ℕ → ℝ,
        (∀ i < n, i ∉ (bc 0).rows → HasDerivAt (fun t => ((d t).residualAt (List.ofFn u)).getD i 0) (dres i) 0) →
        (∀ k < (bc 0).rows.length, HasDerivAt (fun t => (bc t).vals.getD k 0) (dvals k) 0) →
        |(-(∑ i ∈ Finset.range n, if i ∈ (bc 0).rows then 0 else
              (newtonAdjoint (d 0) backend direct symmetric (bc 0) (List.ofFn u) v).getD i 0 * dres i)
            + ∑ k ∈ Finset.range (bc 0).rows.length,
              (bcValsCotangent (bc 0) (newtonAdjoint (d 0) backend direct symmetric (bc 0) (List.ofFn u) v)).getD k 0 * dvals k)
          - ∑ j : Fin n, v.getD j 0 * dU j| ≤ C * (∑ j : Fin n, |v.getD j 0|) * ‖residualMap n d bc (0, u)‖ := by
  obtain ⟨hex, r, C, hr, hC, hgrad⟩ := discrete_gradient h h0
  refine ⟨hex, r, C, hr, hC, fun U hU => ?_⟩
  obtain ⟨dU, hdU, hgrad⟩ := hgrad U hU
  refine ⟨dU, hdU, ?_⟩
  intro u v backend direct symmetric hu hview hsym hsolve dres dvals hres hvals
  have hadj := (C20_newton_adjoint_is_true_adjoint_partial (h.ok 0) (bc 0) (by rw [h.size]; exact h.canonical 0) h.used backend
    direct symmetric (List.ofFn u) v hview (by rw [h.size]; exact hsym) (by rw [h.size]; exact hsolve)).2
  rw [h.size] at hadj
  exact hgrad u v _ hu hadj dres dvals hres hvals

/-- One element on two nodes with the residual `(a^3 + a + b - t, b)`; node 1 is held at `t`. -/
noncomputable def exSpring (t : ℝ) : Discretization ℝ Unit Unit where
  p := ⟨[⟨1, 2, 2, [[0, 1]]⟩], 1, [], .full⟩
  kv := fun q => ⟨[q.2.getD 0 0 ^ 3 + q.2.getD 0 0 + q.2.getD 1 0 - t, q.2.getD 1 0], [3 * q.2.getD 0 0 ^ 2 + 1, 1, 0, 1]⟩
  kf := fun _ _ => ⟨[0, 0], [0, 0, 0, 0]⟩
  zv := ()
  zf := ()
  cellsIn := [()]
  facesIn := []
  batch := 1

noncomputable def exSpringBC (t : ℝ) : DirichletBC ℝ := ⟨[1], [false, true], [t], 2⟩

theorem exSpring_ok (t : ℝ) : DiscOK (exSpring t) where
  wf := by
    refine ⟨?_, by intro fc hfc; simp [exSpring] at hfc⟩
    intro v hv
    simp only [exSpring, List.mem_singleton] at hv
    subst hv
    exact ⟨rfl, by decide, by decide⟩
  batch := Nat.one_pos
  cells := rfl
  faces := .nil
  volJac := fun _ => rfl
  volRes := fun _ => rfl
  faceJac := fun _ _ => rfl
  faceRes := fun _ _ => rfl

theorem exSpring_elements (t : ℝ) (sol : List ℝ) : elementsAt (exSpring t) sol =
    [⟨[0, 1], [sol.getD 0 0 ^ 3 + sol.getD 0 0 + sol.getD 1 0 - t, sol.getD 1 0], [3 * sol.getD 0 0 ^ 2 + 1, 1, 0, 1]⟩] := rfl

theorem exSpring_residual (t : ℝ) (sol : List ℝ) : ((exSpring t).residualAt sol).getD 0 0 =
    sol.getD 0 0 ^ 3 + sol.getD 0 0 + sol.getD 1 0 - t := by
  unfold Discretization.residualAt
  rw [C04_residual_is_scatter_add (exSpring t).p _ _ _ _ _ _ _ (exSpring_ok t).wf ((exSpring_ok t).shapes sol) (exSpring_ok t).batch]
  have hn : (exSpring t).p.n = 2 := rfl
  have he := exSpring_elements t sol
  unfold elementsAt at he
  rw [he, hn]
  simp [Verif.Spec.assembledVec, Finset.sum_range_succ]

theorem exSpring_tangent (t : ℝ) (sol : List ℝ) (j : ℕ) (hj : j < 2) :
    tangentAt (exSpring t) sol 0 j = if j = 0 then 3 * sol.getD 0 0 ^ 2 + 1 else 1 := by
  unfold tangentAt
  rw [exSpring_elements]
  unfold Verif.Spec.assembledMat
  interval_cases j <;> simp [Finset.sum_range_succ]

theorem exSpring_canonical (t : ℝ) : CanonicalBC 2 (exSpringBC t) :=
  ⟨by simp [exSpringBC], by simp [exSpringBC], rfl, by
    intro d hd
    interval_cases d <;> simp [exSpringBC], rfl, rfl⟩

theorem exSpring_map (z : ℝ × (Fin 2 → ℝ)) : residualMap 2 exSpring exSpringBC z =
    ![z.2 0 ^ 3 + z.2 0 + z.2 1 - z.1, z.2 1 - z.1] := by
  have hb := C13_boundary_residual 2 (exSpringBC z.1) (exSpring_canonical z.1) ((exSpring z.1).residualAt (List.ofFn z.2)) (List.ofFn z.2) 1
    (residualAt_length (exSpring_ok z.1) _)
  funext i
  unfold residualMap Discretization.resBc
  fin_cases i
  · have := hb.2.2 0 (by simp [exSpringBC])
    simp only [Fin.zero_eta]
    rw [this, exSpring_residual]
    simp
  · have := hb.2.1 0 (by simp [exSpringBC])
    simpa [exSpringBC] using this

/-- The hypotheses of the discretised statement are met by a nonlinear problem whose load and support both move. -/
theorem exSpring_family : Spec.Family 2 exSpring exSpringBC 0 where
  size _ := rfl
  ok := exSpring_ok
  canonical := exSpring_canonical
  used := by
    intro sol r hr
    rw [exSpring_elements]
    simp only [exSpringBC, List.mem_singleton] at hr
    subst hr
    simp
  rows _ := rfl
  smooth := by
    have : residualMap 2 exSpring exSpringBC = fun z : ℝ × (Fin 2 → ℝ) => ![z.2 0 ^ 3 + z.2 0 + z.2 1 - z.1, z.2 1 - z.1] := by
      funext z
      exact exSpring_map z
    rw [this]
    rw [contDiffAt_pi]
    intro i
    fin_cases i <;> simp <;> fun_prop
  tangent := by
    refine Eventually.of_forall fun u i j hi => ?_
    obtain rfl : i = 0 := by
      fin_cases i
      · rfl
      · simp [exSpringBC] at hi
    simp only [Fin.val_zero, exSpring_residual, exSpring_tangent 0 _ j j.2]
    fin_cases j
    · have h1 : HasDerivAt (fun s : ℝ => s ^ 3 + s + u 1 - 0) (3 * u 0 ^ 2 + 1) (u 0) := by
        simpa using ((((hasDerivAt_id (u 0)).fun_pow 3).add (hasDerivAt_id (u 0))).add_const (u 1)).sub_const 0
      simpa using h1
    · have h1 : HasDerivAt (fun s : ℝ => u 0 ^ 3 + u 0 + s - 0) 1 (u 1) := by
        simpa using ((hasDerivAt_id (u 1)).const_add (u 0 ^ 3 + u 0)).sub_const 0
      simpa using h1
  regular := by
    intro w hw
    have h0 := hw 0
    have h1 := hw 1
    simp only [Fin.sum_univ_two, Verif.Spec.rowEliminated, exSpringBC] at h0 h1
    simp [exSpring_tangent] at h0 h1
    funext i
    fin_cases i
    · simp; linarith
    · simpa using h1

example := C152_discrete_gradient exSpring_family (by rw [exSpring_map]; funext i; fin_cases i <;> simp)

/-- `u ^ 2 = p` at `p = 1`: the solver with the exact Newton direction and the branch `sqrt`. -/
example (U : ℝ → ℝ) (hU : Spec.Branch (fun z : ℝ × ℝ => z.2 ^ 2 - z.1) 1 1 U) :=
  C152_solver_gradient (fun z : ℝ × ℝ => z.2 ^ 2 - z.1) 1 1 _ (by fun_prop) exSquareRoot.2.1 (by norm_num)
    (fun z => -(z ^ 2 - 1) / (2 * z)) exSquareRoot.2.2 U hU

example : Spec.Branch (fun z : ℝ × ℝ => z.2 ^ 2 - z.1) 1 1 Real.sqrt :=
  ⟨Real.sqrt_one, Real.continuous_sqrt.continuousAt, by
    filter_upwards [lt_mem_nhds (show (0 : ℝ) < 1 from one_pos)] with q hq
    simp [Real.sq_sqrt hq.le]⟩

end

end Verif.Props
