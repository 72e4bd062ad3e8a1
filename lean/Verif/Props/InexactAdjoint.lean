import Verif.Props.SolverGradient

/-!
# C158: gradients from iterative adjoint solves
-/

namespace Verif.Props
open Verif.Model Verif.Model.Newton Filter Topology

namespace Spec

/-- Row `i` of the operator applied to `x`, with the missing triangle completed. -/
noncomputable def applied (view : MatrixView) (n : ℕ) : Operator ℝ → List ℝ → ℕ → ℝ
  | .csr A, x, i => ∑ j ∈ Finset.range n, Verif.Spec.completed view A.todense i j * x.getD j 0
  | .fn f, x, i => (f x).getD i 0

/-- `x` solves the system up to a residual whose entries sum to at most `eta` in magnitude. -/
def SolvesWithin (view : MatrixView) (n : ℕ) (op : Operator ℝ) (b x : List ℝ) (eta : ℝ) : Prop :=
  x.length = n ∧ ∑ i ∈ Finset.range n, |applied view n op x i - b.getD i 0| ≤ eta

end Spec

variable {α β : Type*}

/-- C158: the residual of the linear solve is that of the transposed boundary-modified system: neither the column correction nor
the choice of the elimination enlarges it, and constrained DOFs lose theirs under symmetric elimination. -/
theorem C158_adjoint_residual {d : Discretization ℝ α β} (h : DiscOK d) (bc : DirichletBC ℝ) (hbc : CanonicalBC d.p.n bc)
    (hused : UsedBC d bc) (backend : Backend ℝ) (direct symmetric : Bool) (sol v : List ℝ) (eta : ℝ)
    (hd : direct = true → d.p.view = .full)
    (hk : direct = false → symmetric = true → ∀ i < d.p.n, ∀ j < d.p.n, tangentAt d sol i j = tangentAt d sol j i)
    (hsolve : Spec.SolvesWithin d.p.view d.p.n (d.adjointOp bc direct symmetric sol) v
      (backend (d.adjointOp bc direct symmetric sol) v (adjointX0 bc v)) eta) :
    (newtonAdjoint d backend direct symmetric bc sol v).length = d.p.n ∧
    ∑ j ∈ Finset.range d.p.n, |∑ i ∈ Finset.range d.p.n, Verif.Spec.rowEliminated bc.rows (tangentAt d sol) i j
      * (newtonAdjoint d backend direct symmetric bc sol v).getD i 0 - v.getD j 0| ≤ eta ∧
    (symmetric = true → ∀ j ∈ bc.rows, ∑ i ∈ Finset.range d.p.n, Verif.Spec.rowEliminated bc.rows (tangentAt d sol) i j
      * (newtonAdjoint d backend direct symmetric bc sol v).getD i 0 = v.getD j 0) := by
  set op := d.adjointOp bc direct symmetric sol with hop
  set x := backend op v (adjointX0 bc v) with hx
  set b := (List.range d.p.n).map (Spec.applied d.p.view d.p.n op x) with hb
  have hbget : ∀ i < d.p.n, b.getD i 0 = Spec.applied d.p.view d.p.n op x i := by
    intro i hi
    rw [hb, List.getD_eq_getElem _ _ (by simpa using hi)]
    simp
  have hs : Verif.Spec.Solves d.p.view d.p.n op b x := by
    have hl := hsolve.1
    cases hopc : op with
    | csr A =>
      refine ⟨hl, fun i hi => ?_⟩
      rw [hbget i hi, hopc]; rfl
    | fn f =>
      refine ⟨hl, fun i hi => ?_⟩
      rw [hbget i hi, hopc]; rfl
  obtain ⟨h1, h2⟩ := newtonAdjoint_rows h bc hbc hused backend direct symmetric sol v b hd hk hs
  refine ⟨h1, le_trans (Finset.sum_le_sum fun j hj => ?_) hsolve.2, fun hsy j hj => ?_⟩
  · rw [h2 j (Finset.mem_range.mp hj)]
    split_ifs
    · rw [sub_self, abs_zero]; exact abs_nonneg _
    · rw [hbget j (Finset.mem_range.mp hj)]
  · rw [h2 j (hbc.lt j hj), if_pos ⟨hsy, hj⟩]

/-- C158: the gradient of the Newton solver's reverse rule with an inexact linear solve. -/
theorem C158_inexact_gradient {n : ℕ} {d : ℝ → Discretization ℝ α β} {bc : ℝ → DirichletBC ℝ} {x : Fin n → ℝ}
    (h : Spec.Family n d bc x) (h0 : residualMap n d bc (0, x) = 0) :
    (∃ U, Spec.Branch (residualMap n d bc) 0 x U) ∧ ∃ r C : ℝ, 0 < r ∧ 0 ≤ C ∧ ∀ U, Spec.Branch (residualMap n d bc) 0 x U →
      ∃ dU : Fin n → ℝ, (∀ j, HasDerivAt (fun t => U t j) (dU j) 0) ∧
      ∀ (u : Fin n → ℝ) (v : List ℝ) (backend : Backend ℝ) (direct symmetric : Bool) (eta : ℝ), ‖u - x‖ ≤ r →
        (direct = true → (d 0).p.view = .full) →
        (direct = false → symmetric = true → ∀ i < n, ∀ j < n,
          tangentAt (d 0) (List.ofFn u) i j = tangentAt (d 0) (List.ofFn u) j i) →
        Spec.SolvesWithin (d 0).p.view n ((d 0).adjointOp (bc 0) direct symmetric (List.ofFn u)) v
          (backend ((d 0).adjointOp (bc 0) direct symmetric (List.ofFn u)) v (adjointX0 (bc 0) v)) eta →
        ∀ dres dvals : ℕ → ℝ,
        (∀ i < n, i ∉ (bc 0).rows → HasDerivAt (fun t => ((d t).residualAt (List.ofFn u)).getD i 0) (dres i) 0) →
        (∀ k < (bc 0).rows.length, HasDerivAt (fun t => (bc t).vals.getD k 0) (dvals k) 0) →
        |(-(∑ i ∈ Finset.range n, if i ∈ (bc 0).rows then 0 else
              (newtonAdjoint (d 0) backend direct symmetric (bc 0) (List.ofFn u) v).getD i 0 * dres i)
            + ∑ k ∈ Finset.range (bc 0).rows.length,
              (bcValsCotangent (bc 0) (newtonAdjoint (d 0) backend direct symmetric (bc 0) (List.ofFn u) v)).getD k 0 * dvals k)
          - ∑ j : Fin n, v.getD j 0 * dU j| ≤
          C * (∑ j : Fin n, |v.getD j 0| + eta) * ‖residualMap n d bc (0, u)‖ + eta * ‖dU‖ := by
  obtain ⟨hex, r, C, hr, hC, hgrad⟩ := discrete_gradient h h0
  refine ⟨hex, r, C, hr, hC, fun U hU => ?_⟩
  obtain ⟨dU, hdU, hgrad⟩ := hgrad U hU
  refine ⟨dU, hdU, ?_⟩
  intro u v backend direct symmetric eta hu hview hsym hsolve dres dvals hres hvals
  obtain ⟨-, hadj, -⟩ := C158_adjoint_residual (h.ok 0) (bc 0) (by rw [h.size]; exact h.canonical 0) h.used backend direct symmetric
    (List.ofFn u) v eta hview (by rw [h.size]; exact hsym) (by rw [h.size]; exact hsolve)
  rw [h.size] at hadj
  set lam := newtonAdjoint (d 0) backend direct symmetric (bc 0) (List.ofFn u) v with hlam
  set w : List ℝ := List.ofFn fun j : Fin n => ∑ i ∈ Finset.range n,
    Verif.Spec.rowEliminated (bc 0).rows (tangentAt (d 0) (List.ofFn u)) i j * lam.getD i 0 with hw
  have hwget : ∀ j : Fin n, w.getD j 0 = ∑ i ∈ Finset.range n,
      Verif.Spec.rowEliminated (bc 0).rows (tangentAt (d 0) (List.ofFn u)) i j * lam.getD i 0 := by
    intro j
    rw [hw, List.getD_eq_getElem _ _ (by simp), List.getElem_ofFn]
  rw [Finset.sum_range] at hadj
  have hdiff : ∑ j : Fin n, |w.getD j 0 - v.getD j 0| ≤ eta := by
    refine le_trans (le_of_eq (Finset.sum_congr rfl fun j _ => ?_)) hadj
    rw [hwget]
  have hmain := hgrad u w lam hu (fun j hj => (hwget ⟨j, hj⟩).symm) dres dvals hres hvals
  have hwv : ∑ j : Fin n, |w.getD j 0| ≤ ∑ j : Fin n, |v.getD j 0| + eta := by
    refine le_trans ?_ (add_le_add_right hdiff _)
    rw [← Finset.sum_add_distrib]
    refine Finset.sum_le_sum fun j _ => ?_
    have := abs_add_le (v.getD j 0) (w.getD j 0 - v.getD j 0)
    rwa [add_sub_cancel] at this
  have hlast : |∑ j : Fin n, w.getD j 0 * dU j - ∑ j : Fin n, v.getD j 0 * dU j| ≤ eta * ‖dU‖ := by
    rw [← Finset.sum_sub_distrib]
    refine (Finset.abs_sum_le_sum_abs _ _).trans (le_trans ?_ (mul_le_mul_of_nonneg_right hdiff (norm_nonneg _)))
    rw [Finset.sum_mul]
    refine Finset.sum_le_sum fun j _ => ?_
    rw [← sub_mul, abs_mul]
    exact mul_le_mul_of_nonneg_left (norm_le_pi_norm dU j) (abs_nonneg _)
  have hmain' := hmain.trans (mul_le_mul_of_nonneg_right (mul_le_mul_of_nonneg_left hwv hC) (norm_nonneg _))
  refine le_trans ?_ (add_le_add hmain' hlast)
  rw [show ∀ g a b : ℝ, g - b = (g - a) + (a - b) from fun g a b => by ring]
  exact abs_add_le _ _

/-- C158 from a guess to the gradient, for any nonlinear equation: Newton directions whose linear residual is at most the fraction
`eta` of the residual, and an adjoint with residual `eps`. -/
theorem C158_iterative_solver_gradient {P V W : Type*} [NormedAddCommGroup P] [NormedSpace ℝ P] [CompleteSpace P]
    [NormedAddCommGroup V] [NormedSpace ℝ V] [CompleteSpace V] [NormedAddCommGroup W] [NormedSpace ℝ W] [CompleteSpace W]
    (F : P × V → W) (p : P) (x : V) (A : V ≃L[ℝ] W) (hF : ContDiffAt ℝ 2 F (p, x))
    (hA : fderiv ℝ (fun u => F (p, u)) x = A) (h0 : F (p, x) = 0) (dir : V → V) (eta q : ℝ) (he : eta < q) (hq0 : 0 ≤ q) (hq : q < 1)
    (hd : ∀ᶠ z in 𝓝 x, ‖fderiv ℝ (fun u => F (p, u)) z (dir z) + F (p, z)‖ ≤ eta * ‖F (p, z)‖) (U : P → V) (hU : Spec.Branch F p x U) :
    ∃ (r C : ℝ) (DU : P →L[ℝ] V), 0 < r ∧ 0 ≤ C ∧ HasFDerivAt U DU p ∧ ∀ tol : ℝ, 0 < tol → ∃ N : ℕ,
      ∀ (o : NewtonOpts ℝ) (guess : V) (raiseOnFail eager : Bool),
      o.tol = tol → q * q ≤ 1 - 2 * o.c1 → 0 < o.maxBacktracks → 0 < o.tiny → N ≤ o.maxIter → ‖guess - x‖ ≤ r →
      ∃ sol, newtonForward (exactEnv (fun u => F (p, u)) dir) o raiseOnFail eager guess = .ok sol ∧
        ∀ (v : V →L[ℝ] ℝ) (lam : W →L[ℝ] ℝ) (eps : ℝ), ‖lam.comp (fderiv ℝ (fun w => F (p, w)) sol) - v‖ ≤ eps →
        ‖-(lam.comp (fderiv ℝ (fun q => F (q, sol)) p)) - v.comp DU‖ ≤
          C * (‖v‖ + eps) * max tol (o.relTol * max ‖F (p, guess)‖ o.tiny) + eps * ‖DU‖ := by
  obtain ⟨-, r1, C, hr1, hC, hgrad⟩ := C152_gradient_within_residual F p x A hF hA h0
  obtain ⟨DU, hDU, hgrad⟩ := hgrad U hU
  have hG : ContDiffAt ℝ 2 (fun u => F (p, u)) x := hF.comp x (contDiffAt_const.prodMk contDiffAt_id)
  obtain ⟨r2, Λ, hr2, hall⟩ := C151_inexact_solves (fun u => F (p, u)) dir x A hG hA h0 eta q he hq0 hq hd
  -- guesses near the solution have a small residual
  obtain ⟨r3, hr3, hsmall⟩ : ∃ r3 > 0, ∀ z, ‖z - x‖ ≤ r3 → |Λ| * ‖F (p, z)‖ ≤ r1 := by
    have hc : ContinuousAt (fun z => |Λ| * ‖F (p, z)‖) x := (continuousAt_const.mul hG.continuousAt.norm)
    have hlt : |Λ| * ‖F (p, x)‖ < r1 := by rw [h0, norm_zero, mul_zero]; exact hr1
    obtain ⟨ρ, hρ, hb⟩ := Metric.eventually_nhds_iff_ball.1 (hc.eventually (gt_mem_nhds hlt))
    refine ⟨ρ / 2, by positivity, fun z hz => (hb z ?_).le⟩
    rw [Metric.mem_ball, dist_eq_norm]
    linarith
  refine ⟨min r2 r3, C, DU, lt_min hr2 hr3, hC, hDU, fun tol htol => ?_⟩
  obtain ⟨N, hN⟩ := hall tol htol
  refine ⟨N, ?_⟩
  intro o guess rf eg h1 h2 h3 h4 h5 hg
  obtain ⟨hreach, hfwd⟩ := hN o guess h1 h2 h3 h4 (hg.trans (min_le_left _ _))
  obtain ⟨sol, e1, e2, e3⟩ := hfwd h5 rf eg
  refine ⟨sol, e1, ?_⟩
  have hfin := (loop_reach (exactEnv (fun u => F (p, u)) dir) o guess _ Reach.init).1
  obtain ⟨f1, f2, f3⟩ := hreach _ hfin
  have hsolfin : sol = (newtonFinal (exactEnv (fun u => F (p, u)) dir) o guess).sol := by
    have hf : (newtonFinal (exactEnv (fun u => F (p, u)) dir) o guess).found = true := f1
    simp only [newtonForward, hf] at e1
    simpa using e1.symm
  have hdist : ‖sol - x‖ ≤ r1 := by
    have g : ‖F (p, sol)‖ ≤ ‖F (p, guess)‖ := by
      rw [hsolfin]
      refine f2.trans (mul_le_of_le_one_left (norm_nonneg _) (pow_le_one₀ hq0 hq.le))
    calc ‖sol - x‖ ≤ |Λ| * ‖F (p, sol)‖ := e3.trans (mul_le_mul_of_nonneg_right (le_abs_self _) (norm_nonneg _))
      _ ≤ |Λ| * ‖F (p, guess)‖ := mul_le_mul_of_nonneg_left g (abs_nonneg _)
      _ ≤ r1 := hsmall guess (hg.trans (min_le_right _ _))
  intro v lam eps hlam
  set w := lam.comp (fderiv ℝ (fun w => F (p, w)) sol) with hw
  have hmain := hgrad sol hdist w lam rfl
  have heps : 0 ≤ eps := (norm_nonneg _).trans hlam
  have hwn : ‖w‖ ≤ ‖v‖ + eps := by
    have := norm_add_le v (w - v)
    rw [add_sub_cancel] at this
    linarith
  have hm : ‖F (p, sol)‖ ≤ max tol (o.relTol * max ‖F (p, guess)‖ o.tiny) := by
    rcases e2 with e | e
    · exact e.trans (le_max_left _ _)
    · exact e.trans (le_max_right _ _)
  have h6 : ‖(w - v).comp DU‖ ≤ eps * ‖DU‖ :=
    ((w - v).opNorm_comp_le DU).trans (mul_le_mul_of_nonneg_right hlam (norm_nonneg _))
  have h7 : -(lam.comp (fderiv ℝ (fun q => F (q, sol)) p)) - v.comp DU =
      (-(lam.comp (fderiv ℝ (fun q => F (q, sol)) p)) - w.comp DU) + (w - v).comp DU := by
    rw [ContinuousLinearMap.sub_comp]; abel
  rw [h7]
  refine (norm_add_le _ _).trans (add_le_add (hmain.trans ?_) h6)
  exact mul_le_mul (mul_le_mul_of_nonneg_left hwn hC) hm (norm_nonneg _) (mul_nonneg hC (by positivity))

/-- A backend that gives up at once still meets the first hypothesis, with the whole right-hand side as residual. -/
example (v : List ℝ) : Spec.SolvesWithin (exSpring 0).p.view 2 ((exSpring 0).adjointOp (exSpringBC 0) false false (List.ofFn (0 : Fin 2 → ℝ))) v
    ((fun _ _ _ => [0, 0] : Backend ℝ) ((exSpring 0).adjointOp (exSpringBC 0) false false (List.ofFn (0 : Fin 2 → ℝ))) v
      (adjointX0 (exSpringBC 0) v))
    (∑ i ∈ Finset.range 2, |Spec.applied (exSpring 0).p.view 2
      ((exSpring 0).adjointOp (exSpringBC 0) false false (List.ofFn (0 : Fin 2 → ℝ))) [0, 0] i - v.getD i 0|) :=
  ⟨rfl, le_refl _⟩

example : ∃ r C : ℝ, 0 < r ∧ 0 ≤ C :=
  let ⟨_, r, C, hr, hC, _⟩ := C158_inexact_gradient exSpring_family (by
    rw [exSpring_map]; funext i; fin_cases i <;> simp)
  ⟨r, C, hr, hC⟩

/-- `u ^ 2 = p` at `p = 1` with directions that are a tenth too short. -/
example (U : ℝ → ℝ) (hU : Spec.Branch (fun z : ℝ × ℝ => z.2 ^ 2 - z.1) 1 1 U) :=
  C158_iterative_solver_gradient (fun z : ℝ × ℝ => z.2 ^ 2 - z.1) 1 1 _ (by fun_prop) exSquareRoot.2.1 (by norm_num)
    (fun z => (9 / 10 : ℝ) • (-(z ^ 2 - 1) / (2 * z))) (1 / 10) (1 / 5) (by norm_num) (by norm_num) (by norm_num) (by
      filter_upwards [exSquareRoot.2.2] with z hz
      rw [map_smul, hz, smul_eq_mul, show (9 / 10 : ℝ) * -(z ^ 2 - 1) + (z ^ 2 - 1) = 1 / 10 * (z ^ 2 - 1) by ring, norm_mul]
      norm_num) U hU

end Verif.Props
