import Verif.Model.CallbackNewton
import Verif.Props.Newton
import Verif.Props.Solve
import Mathlib.Analysis.SpecialFunctions.Pow.NNReal
import Mathlib.Tactic.Linarith
import Mathlib.Tactic.FieldSimp

/-!
# C156: the nonlinear solver on a discretised problem, its steps and boundary values
-/

set_option linter.unusedSectionVars false

namespace Verif.Props
open Verif.Model Verif.Model.Newton
open scoped BigOperators

section
variable {K : Type*} [Field K] [LinearOrder K] {α β : Type*}

theorem newton_axpy {n : ℕ} (sol du : List K) (a : K) (h1 : sol.length = n) (h2 : du.length = n) :
    (vadd sol (du.map (a * ·))).length = n ∧ ∀ i < n, (vadd sol (du.map (a * ·))).getD i 0 = sol.getD i 0 + a * du.getD i 0 := by
  refine ⟨by simp [vadd, h1, h2], fun i hi => ?_⟩
  rw [vadd_getD _ _ (by simp [h1, h2]), List.getD_eq_getElem (du.map _) _ (by simpa [h2] using hi), List.getElem_map,
    List.getD_eq_getElem du _ (by omega)]

/-- C156: the direction. It moves every constrained DOF to its prescribed value, and at the other DOFs it solves the Newton
equation of the tangent, except that symmetric elimination leaves out the coupling with the boundary jump. So it is the exact
Newton step if the boundary values are met already or with row elimination. -/
theorem C156_direction {d : Discretization K α β} (h : DiscOK d) (bc : DirichletBC K) (hbc : CanonicalBC d.p.n bc)
    (hused : UsedBC d bc) (backend : Backend K) (rt : K → K) (direct symmetric : Bool) (sol : List K)
    (hview : direct = true → d.p.view = .full ∨ (symmetric = true ∧
      ∀ i < d.p.n, ∀ j < d.p.n, tangentAt d sol i j = tangentAt d sol j i))
    (hsolve : ∀ b x0, Spec.Solves d.p.view d.p.n (d.forwardOp bc direct symmetric sol) b
      (backend (d.forwardOp bc direct symmetric sol) b x0)) :
    let du := (d.newtonEnv backend rt direct symmetric bc).direction sol
    du.length = d.p.n ∧
    (∀ k < bc.rows.length, sol.getD (bc.rows.getD k 0) 0 + du.getD (bc.rows.getD k 0) 0 = bc.vals.getD k 0) ∧
    ∀ i < d.p.n, i ∉ bc.rows →
      ((d.residualAt sol).getD i 0 + ∑ j ∈ Finset.range d.p.n, tangentAt d sol i j * du.getD j 0
        = ∑ j ∈ Finset.range d.p.n, if symmetric = true ∧ j ∈ bc.rows then tangentAt d sol i j * du.getD j 0 else 0) ∧
      ((symmetric = true → Spec.MeetsBC bc sol) →
        (d.residualAt sol).getD i 0 + ∑ j ∈ Finset.range d.p.n, tangentAt d sol i j * du.getD j 0 = 0) := by
  intro du
  obtain ⟨hlen, hx⟩ := forward_solved h bc hbc hused direct symmetric sol hview _ _
    (hsolve (vneg (d.resBc bc sol)) (createX0 bc sol))
  have hrb := C13_boundary_residual d.p.n bc hbc (d.residualAt sol) sol 1 (residualAt_length h sol)
  have hb : ∀ k < bc.rows.length, sol.getD (bc.rows.getD k 0) 0 + du.getD (bc.rows.getD k 0) 0 = bc.vals.getD k 0 := by
    intro k hk
    have hm := rows_getD_mem bc hk
    have hlt := hbc.lt _ hm
    have := hx _ hlt
    rw [vneg_getD] at this
    simp only [elimEntry, if_pos hm] at this
    rw [Finset.sum_congr rfl (g := fun j => if bc.rows.getD k 0 = j then du.getD j 0 else 0)
      (fun j _ => by split_ifs <;> simp [du, Discretization.newtonEnv]), Finset.sum_ite_eq, if_pos (by simpa using hlt)] at this
    rw [this]
    unfold Discretization.resBc
    rw [hrb.2.1 k hk]
    ring
  refine ⟨hlen, hb, fun i hi hir => ?_⟩
  have := hx i hi
  rw [vneg_getD] at this
  unfold Discretization.resBc at this
  rw [hrb.2.2 i hir] at this
  simp only [elimEntry, if_neg hir] at this
  have e1 : ∑ j ∈ Finset.range d.p.n, tangentAt d sol i j * du.getD j 0
      = ∑ j ∈ Finset.range d.p.n, (if symmetric = true ∧ j ∈ bc.rows then 0 else tangentAt d sol i j) * du.getD j 0
        + ∑ j ∈ Finset.range d.p.n, if symmetric = true ∧ j ∈ bc.rows then tangentAt d sol i j * du.getD j 0 else 0 := by
    rw [← Finset.sum_add_distrib]
    apply Finset.sum_congr rfl
    intro j _
    split_ifs <;> ring
  have e2 : ∑ j ∈ Finset.range d.p.n, (if symmetric = true ∧ j ∈ bc.rows then 0 else tangentAt d sol i j) * du.getD j 0
      = -(d.residualAt sol).getD i 0 := this
  have main : (d.residualAt sol).getD i 0 + ∑ j ∈ Finset.range d.p.n, tangentAt d sol i j * du.getD j 0
        = ∑ j ∈ Finset.range d.p.n, if symmetric = true ∧ j ∈ bc.rows then tangentAt d sol i j * du.getD j 0 else 0 := by
    rw [e1, e2]
    ring
  refine ⟨main, fun hm => ?_⟩
  rw [main]
  apply Finset.sum_eq_zero
  intro j _
  split_ifs with hc
  · obtain ⟨k, hk, rfl⟩ := mem_rows_getD hbc hc.2
    have hz : du.getD (bc.rows.getD k 0) 0 = 0 := by
      have := hb k hk
      rw [hm hc.1 k hk] at this
      exact left_eq_add.mp this.symm
    rw [hz, mul_zero]
  · rfl

/-- Every iteration moves along the direction by some step. -/
theorem newtonBody_moves {V W : Type*} (E : NewtonEnv K V W) (o : NewtonOpts K) [IsStrictOrderedRing K] (s : NState K V) :
    ∃ a, (newtonBody E o s).sol = E.axpy s.sol a (E.direction s.sol) := by
  obtain ⟨_, g2, g3⟩ := C19_first_acceptable_step E o s.sol (E.direction s.sol) (E.resf s.sol) (E.norm (E.resf s.sol))
  cases hf : (armijo E o s.sol (E.direction s.sol) (E.resf s.sol) (E.norm (E.resf s.sol))).found with
  | true =>
    obtain ⟨k, _, _, _, _, _, e5, _⟩ := g2 hf
    exact ⟨_, e5⟩
  | false => exact ⟨_, (g3 hf).2.1⟩

/-- C156: boundary values. In every iteration the distance of all constrained DOFs to their prescribed values shrinks by one
common factor `1 - a`, `a` the step taken; so if the guess meets them every iterate does, and so does whatever the solver
returns, whether it converges or not. -/
theorem C156_boundary_values [IsStrictOrderedRing K] {d : Discretization K α β} (h : DiscOK d) (bc0 : DirichletBC K) (obc : Option (DirichletBC K))
    (hbc : CanonicalBC d.p.n (obc.getD bc0)) (hused : UsedBC d (obc.getD bc0)) (backend : Backend K) (rt : K → K)
    (direct symmetric : Bool) (o : NewtonOpts K) (raiseOnFail eager : Bool) (oguess : Option (List K))
    (hlen : (oguess.getD (zeroLikeGuess d.p.n bc0)).length = d.p.n)
    (hview : direct = true → d.p.view = .full ∨ (symmetric = true ∧
      ∀ sol, ∀ i < d.p.n, ∀ j < d.p.n, tangentAt d sol i j = tangentAt d sol j i))
    (hsolve : ∀ sol b x0, Spec.Solves d.p.view d.p.n (d.forwardOp (obc.getD bc0) direct symmetric sol) b
      (backend (d.forwardOp (obc.getD bc0) direct symmetric sol) b x0)) :
    (∀ s, Reach (d.newtonEnv backend rt direct symmetric (obc.getD bc0)) o (oguess.getD (zeroLikeGuess d.p.n bc0)) s →
      s.sol.length = d.p.n ∧
      ∃ a, ∀ k < (obc.getD bc0).rows.length,
        (newtonBody (d.newtonEnv backend rt direct symmetric (obc.getD bc0)) o s).sol.getD ((obc.getD bc0).rows.getD k 0) 0
            - (obc.getD bc0).vals.getD k 0
          = (1 - a) * (s.sol.getD ((obc.getD bc0).rows.getD k 0) 0 - (obc.getD bc0).vals.getD k 0)) ∧
    ∀ u, d.newtonSolver backend rt o raiseOnFail eager direct symmetric bc0 oguess obc = .ok u →
      u.length = d.p.n ∧
      (Spec.MeetsBC (obc.getD bc0) (oguess.getD (zeroLikeGuess d.p.n bc0)) → Spec.MeetsBC (obc.getD bc0) u) := by
  set bc := obc.getD bc0
  set guess := oguess.getD (zeroLikeGuess d.p.n bc0)
  set E := d.newtonEnv backend rt direct symmetric bc with hE
  have hdir := fun sol => C156_direction h bc hbc hused backend rt direct symmetric sol
    (fun hd => (hview hd).imp id (fun q => ⟨q.1, q.2 sol⟩)) (hsolve sol)
  have hbody : ∀ s : NState K (List K), s.sol.length = d.p.n → (newtonBody E o s).sol.length = d.p.n ∧
      ∃ a, ∀ k < bc.rows.length, (newtonBody E o s).sol.getD (bc.rows.getD k 0) 0 - bc.vals.getD k 0
          = (1 - a) * (s.sol.getD (bc.rows.getD k 0) 0 - bc.vals.getD k 0) := by
    intro s hs
    obtain ⟨a, ha⟩ := newtonBody_moves E o s
    obtain ⟨q1, q2, _⟩ := hdir s.sol
    obtain ⟨r1, r2⟩ := newton_axpy s.sol (E.direction s.sol) a hs q1
    have e : E.axpy s.sol a (E.direction s.sol) = vadd s.sol ((E.direction s.sol).map (a * ·)) := rfl
    rw [ha, e]
    refine ⟨r1, a, fun k hk => ?_⟩
    rw [r2 _ (hbc.lt _ (rows_getD_mem bc hk)), ← q2 k hk]
    ring
  have hreach : ∀ s, Reach E o guess s → s.sol.length = d.p.n ∧ (Spec.MeetsBC bc guess → Spec.MeetsBC bc s.sol) := by
    intro s hs
    induction hs with
    | init => exact ⟨hlen, id⟩
    | step s _ _ ih =>
      obtain ⟨b1, a, b2⟩ := hbody s ih.1
      refine ⟨b1, fun hg k hk => ?_⟩
      have := b2 k hk
      rw [ih.2 hg k hk, sub_self, mul_zero, sub_eq_zero] at this
      exact this
  refine ⟨fun s hs => ⟨(hreach s hs).1, (hbody s (hreach s hs).1).2⟩, ?_⟩
  intro u hu
  obtain ⟨hfin, _⟩ := loop_reach E o guess _ Reach.init
  change Reach E o guess (newtonFinal E o guess) at hfin
  have hu' : newtonForward E o raiseOnFail eager guess = .ok u := hu
  simp only [newtonForward] at hu'
  split at hu'
  · cases hu'
  · rw [← Except.ok.inj hu']
    exact hreach _ hfin

theorem ssq_range (r : List K) : ssq r = ∑ i ∈ Finset.range r.length, r.getD i 0 * r.getD i 0 := by
  unfold ssq
  induction r with
  | nil => simp
  | cons a r ih =>
    rw [List.map_cons, List.sum_cons, List.length_cons, Finset.sum_range_succ', ih, add_comm]
    simp

/-- The squared norm of the boundary-modified residual: free rows and boundary gaps. -/
theorem ssq_resBc {d : Discretization K α β} (h : DiscOK d) (bc : DirichletBC K) (hbc : CanonicalBC d.p.n bc) (u : List K) :
    ssq (d.resBc bc u) = ∑ i ∈ Finset.range d.p.n, (if i ∈ bc.rows then 0 else (d.residualAt u).getD i 0 * (d.residualAt u).getD i 0)
      + ∑ k ∈ Finset.range bc.rows.length, (u.getD (bc.rows.getD k 0) 0 - bc.vals.getD k 0) * (u.getD (bc.rows.getD k 0) 0 - bc.vals.getD k 0) := by
  obtain ⟨h1, h2, h3⟩ := C13_boundary_residual d.p.n bc hbc (d.residualAt u) u 1 (residualAt_length h u)
  have hnd : bc.rows.Nodup := hbc.sorted.imp (fun h => Nat.ne_of_lt h)
  unfold Discretization.resBc
  rw [ssq_range, h1]
  have e : ∀ i ∈ Finset.range d.p.n, (applyBcRes bc (d.residualAt u) u 1).getD i 0 * (applyBcRes bc (d.residualAt u) u 1).getD i 0
      = (if i ∈ bc.rows then 0 else (d.residualAt u).getD i 0 * (d.residualAt u).getD i 0)
        + (if i ∈ bc.rows then (applyBcRes bc (d.residualAt u) u 1).getD i 0 * (applyBcRes bc (d.residualAt u) u 1).getD i 0 else 0) := by
    intro i _
    by_cases hi : i ∈ bc.rows
    · rw [if_pos hi, if_pos hi, zero_add]
    · rw [if_neg hi, if_neg hi, add_zero, h3 i hi]
  rw [Finset.sum_congr rfl e, Finset.sum_add_distrib]
  congr 1
  rw [← Finset.sum_filter]
  symm
  refine Finset.sum_bij (fun k _ => bc.rows.getD k 0) ?_ ?_ ?_ ?_
  · intro k hk
    have hm := rows_getD_mem bc (Finset.mem_range.mp hk)
    exact Finset.mem_filter.mpr ⟨Finset.mem_range.mpr (hbc.lt _ hm), hm⟩
  · intro a ha b hb e
    rw [List.getD_eq_getElem _ _ (Finset.mem_range.mp ha), List.getD_eq_getElem _ _ (Finset.mem_range.mp hb)] at e
    exact (List.Nodup.getElem_inj_iff hnd).mp e
  · intro j hj
    obtain ⟨k, hk, e⟩ := mem_rows_getD hbc (Finset.mem_filter.mp hj).2
    exact ⟨k, Finset.mem_range.mpr hk, e⟩
  · intro k hk
    rw [h2 k (Finset.mem_range.mp hk), one_mul]

variable [IsStrictOrderedRing K]

/-- C156: linear problems. Unless the guess is within the tolerances already, the nonlinear solver returns after one full step
what the linear solver returns, if the guess meets the boundary values or with row elimination. (The boundary values and the
interior equations then hold by C16.) Missing from the last sentence of C156: guesses that do not meet the values, under symmetric
elimination; false, see `C156_warm_start_fails`. -/
theorem C156_one_step_partial {d : Discretization K α β} (h : DiscOK d) {kv0 : α → Local K}
    {kf0 : ℕ → β → Local K} (hl : LinearKernels d kv0 kf0) (hs0 : Shapes d.p kv0 kf0 d.cellsIn d.facesIn)
    (bc0 : DirichletBC K) (obc : Option (DirichletBC K)) (hbc : CanonicalBC d.p.n (obc.getD bc0))
    (hused : UsedBC d (obc.getD bc0)) (backend : Backend K) (rt : K → K) (hrt : ∀ x, 0 ≤ x → rt x * rt x = x)
    (direct symmetric : Bool) (o : NewtonOpts K) (raiseOnFail eager : Bool) (guess : List K)
    (hg : guess.length = d.p.n) (hguess : symmetric = true → Spec.MeetsBC (obc.getD bc0) guess)
    (hview : direct = true → d.p.view = .full ∨ (symmetric = true ∧
      ∀ i < d.p.n, ∀ j < d.p.n, tangentAt d guess i j = tangentAt d guess j i))
    (hsolve : ∀ b x0, Spec.Solves d.p.view d.p.n (d.forwardOp (obc.getD bc0) direct symmetric guess) b
      (backend (d.forwardOp (obc.getD bc0) direct symmetric guess) b x0))
    (hc : o.c1 ≤ 1 / 2) (hb : 0 < o.maxBacktracks) (hm : 0 < o.maxIter) (ht : 0 ≤ o.tol)
    (h1 : o.tol < rt (ssq (d.resBc (obc.getD bc0) guess)))
    (h2 : o.relTol < rt (ssq (d.resBc (obc.getD bc0) guess)) / max (rt (ssq (d.resBc (obc.getD bc0) guess))) o.tiny) :
    d.newtonSolver backend rt o raiseOnFail eager direct symmetric bc0 (some guess) obc
      = .ok (linearSolver d backend direct symmetric bc0 (some guess) obc) := by
  set bc := obc.getD bc0 with hbcdef
  set E := d.newtonEnv backend rt direct symmetric bc with hE
  obtain ⟨c1, c2, c3⟩ := C16_linear_solve_correct h hl hs0 bc hbc hused backend direct symmetric guess hg hguess hview hsolve
  set u := linearStep d backend direct symmetric bc guess with hu
  have hzero : ssq (d.resBc bc u) = 0 := by
    rw [ssq_resBc h bc hbc]
    rw [Finset.sum_eq_zero, Finset.sum_eq_zero, add_zero]
    · intro k hk
      rw [c2 k (Finset.mem_range.mp hk), sub_self, mul_zero]
    · intro i hi
      split_ifs with hir
      · rfl
      · rw [c3 i (Finset.mem_range.mp hi) hir, mul_zero]
  have hax : E.axpy guess 1 (E.direction guess) = u := by
    simp only [hE, Discretization.newtonEnv, one_mul, List.map_id']
    rfl
  have hpos : ∀ r : List K, 0 ≤ ssq r := fun r => List.sum_nonneg (by
    intro x hx
    obtain ⟨y, _, rfl⟩ := List.mem_map.1 hx
    exact mul_self_nonneg y)
  have hrt0 : rt 0 = 0 := mul_self_eq_zero.1 (hrt 0 le_rfl)
  obtain ⟨g1, g2, _⟩ := C19_first_acceptable_step E o guess (E.direction guess) (E.resf guess) (E.norm (E.resf guess))
  have hacc : Acceptable E o guess (E.direction guess) (E.resf guess) (E.norm (E.resf guess)) 1 := by
    refine ⟨rfl, rt (ssq (d.resBc bc u)), rt (ssq (d.resBc bc guess)), ssq (d.resBc bc guess), ?_, rfl, rfl, ?_⟩
    · rw [hax]
      rfl
    · rw [hzero, hrt0, hrt _ (hpos _)]
      nlinarith [hpos (d.resBc bc guess), mul_nonneg (sub_nonneg.2 hc) (hpos (d.resBc bc guess))]
  have hf := g1.2 ⟨0, hb, by rw [pow_zero]; exact hacc⟩
  obtain ⟨k, _, _, k2, _, _, k5, k6⟩ := g2 hf
  have hk0 : k = 0 := by
    by_contra hne
    exact k2 0 (by omega) (by rw [pow_zero]; exact hacc)
  rw [hk0, pow_zero, hax] at k5
  set s1 := newtonBody E o ⟨guess, E.norm (E.resf guess), 0, true⟩ with hs1
  have e1 : s1.sol = u := k5
  have e2 : s1.rn = some 0 := by
    have : s1.rn = E.norm (E.resf s1.sol) := k6
    rw [this, e1]
    change some (rt (ssq (d.resBc bc u))) = _
    rw [hzero, hrt0]
  have hcond0 : newtonCond o (E.norm (E.resf guess)) ⟨guess, E.norm (E.resf guess), 0, true⟩ = true := by
    change newtonCond o (some (rt (ssq (d.resBc bc guess)))) ⟨guess, some (rt (ssq (d.resBc bc guess))), 0, true⟩ = true
    simp only [newtonCond, flt, fop, Bool.and_true, Bool.and_eq_true, decide_eq_true_eq]
    exact ⟨hm, h1, h2⟩
  have hcond1 : newtonCond o (E.norm (E.resf guess)) s1 = false := by
    have : flt (some o.tol) s1.rn = false := by
      rw [e2]
      simpa [flt] using ht
    simp [newtonCond, this]
  have hfin : newtonFinal E o guess = s1 := by
    unfold newtonFinal
    rw [newtonLoop, dif_pos hcond0, ← hs1, newtonLoop, dif_neg (by rw [hcond1]; simp)]
  have hfound : s1.found = true := hf
  have : d.newtonSolver backend rt o raiseOnFail eager direct symmetric bc0 (some guess) obc
      = newtonForward E o raiseOnFail eager guess := rfl
  rw [this]
  simp only [newtonForward, hfin, hfound, Bool.not_true, Bool.and_false, Bool.false_eq_true, if_false, e1]
  rfl

/-- C156 (violation): a solve continued from the solution of the last one. Symmetric elimination, linear problem, exact
backend; the guess is the solution for the old boundary values, the call overrides them by `v`. Let `D` be the squared length
of the change of the boundary values and `L` the squared length of the forces it causes at the free DOFs. If
`2 D < rho^m (L + D)` for all step sizes tried (30 halvings: `L/D` above about `10^9`, a stiffness of 33000 in the units of the
problem), every line search fails in the first iteration: the solver raises, although row elimination, or a guess with the new
values, solves the same system in one step (`C156_one_step_partial`). -/
theorem C156_warm_start_fails {d : Discretization K α β} (h : DiscOK d) {kv0 : α → Local K}
    {kf0 : ℕ → β → Local K} (hl : LinearKernels d kv0 kf0) (hs0 : Shapes d.p kv0 kf0 d.cellsIn d.facesIn)
    (bc : DirichletBC K) (hbc : CanonicalBC d.p.n bc) (hused : UsedBC d bc) (v : List K) (hv : v.length = bc.rows.length)
    (backend : Backend K) (rt : K → K) (hrt : ∀ x, 0 ≤ x → rt x * rt x = x) (direct : Bool) (o : NewtonOpts K)
    (guess : List K) (hg : guess.length = d.p.n) (hmeets : Spec.MeetsBC bc guess)
    (heq : ∀ i < d.p.n, i ∉ bc.rows → (d.residualAt guess).getD i 0 = 0)
    (hview : direct = true → d.p.view = .full ∨
      ∀ i < d.p.n, ∀ j < d.p.n, tangentAt d guess i j = tangentAt d guess j i)
    (hsolve : ∀ b x0, Spec.Solves d.p.view d.p.n (d.forwardOp (bc.replaceVals v) direct true guess) b
      (backend (d.forwardOp (bc.replaceVals v) direct true guess) b x0))
    (D L : K) (hD : D = ∑ k ∈ Finset.range bc.rows.length, (v.getD k 0 - bc.vals.getD k 0) * (v.getD k 0 - bc.vals.getD k 0))
    (hL : L = ∑ i ∈ Finset.range d.p.n, if i ∈ bc.rows then 0 else
      (∑ k ∈ Finset.range bc.rows.length, tangentAt d guess i (bc.rows.getD k 0) * (v.getD k 0 - bc.vals.getD k 0)) *
      (∑ k ∈ Finset.range bc.rows.length, tangentAt d guess i (bc.rows.getD k 0) * (v.getD k 0 - bc.vals.getD k 0)))
    (hc : 0 ≤ o.c1) (hr : 0 < o.rho) (hfail : ∀ m < o.maxBacktracks, 2 * D < o.rho ^ m * (L + D))
    (hm : 0 < o.maxIter) (h1 : o.tol < rt D) (h2 : o.relTol < rt D / max (rt D) o.tiny) :
    d.newtonSolver backend rt o true true direct true bc (some guess) (some (bc.replaceVals v)) = .error .lineSearch := by
  set bc' := bc.replaceVals v with hbc'
  have hcan : CanonicalBC d.p.n bc' := ⟨hbc.sorted, hbc.lt, hbc.maskLength, hbc.mask, hv, hbc.total⟩
  have hused' : UsedBC d bc' := hused
  set E := d.newtonEnv backend rt direct true bc' with hE
  obtain ⟨q1, q2, q3⟩ := C156_direction h bc' hcan hused' backend rt direct true guess
    (fun hd => (hview hd).imp id (fun q => ⟨rfl, q⟩)) hsolve
  set du := E.direction guess with hdu
  have q2' : ∀ k < bc.rows.length, du.getD (bc.rows.getD k 0) 0 = v.getD k 0 - bc.vals.getD k 0 := by
    intro k hk
    have e := q2 k hk
    have e' : guess.getD (bc.rows.getD k 0) 0 + du.getD (bc.rows.getD k 0) 0 = v.getD k 0 := e
    rw [← e', hmeets k hk]
    ring
  have hnd : bc.rows.Nodup := hbc.sorted.imp (fun h => Nat.ne_of_lt h)
  have hsum : ∀ i, (∑ j ∈ Finset.range d.p.n, if true = true ∧ j ∈ bc'.rows then tangentAt d guess i j * du.getD j 0 else 0)
      = ∑ k ∈ Finset.range bc.rows.length, tangentAt d guess i (bc.rows.getD k 0) * (v.getD k 0 - bc.vals.getD k 0) := by
    intro i
    rw [← Finset.sum_filter]
    symm
    refine Finset.sum_bij (fun k _ => bc.rows.getD k 0) ?_ ?_ ?_ ?_
    · intro k hk
      have hm := rows_getD_mem bc (Finset.mem_range.mp hk)
      exact Finset.mem_filter.mpr ⟨Finset.mem_range.mpr (hbc.lt _ hm), rfl, hm⟩
    · intro a ha b hb e
      rw [List.getD_eq_getElem _ _ (Finset.mem_range.mp ha), List.getD_eq_getElem _ _ (Finset.mem_range.mp hb)] at e
      exact (List.Nodup.getElem_inj_iff hnd).mp e
    · intro j hj
      obtain ⟨k, hk, e⟩ := mem_rows_getD hbc (Finset.mem_filter.mp hj).2.2
      exact ⟨k, Finset.mem_range.mpr hk, e⟩
    · intro k hk
      rw [q2' k (Finset.mem_range.mp hk)]
  obtain ⟨hK, haff0⟩ := residual_affine h hl hs0 guess
  have htrial : ∀ a : K, ssq (d.resBc bc' (E.axpy guess a du)) = a * a * L + (1 - a) * (1 - a) * D := by
    intro a
    obtain ⟨r1, r2⟩ := newton_axpy guess du a hg q1
    have e : E.axpy guess a du = vadd guess (du.map (a * ·)) := rfl
    rw [e, ssq_resBc h bc' hcan, hL, hD, Finset.mul_sum, Finset.mul_sum]
    congr 1
    · apply Finset.sum_congr rfl
      intro i hi
      have hi' := Finset.mem_range.mp hi
      by_cases hir : i ∈ bc.rows
      · rw [if_pos hir, if_pos (show i ∈ bc'.rows from hir), mul_zero]
      · rw [if_neg hir, if_neg (show i ∉ bc'.rows from hir)]
        have hres : (d.residualAt (vadd guess (du.map (a * ·)))).getD i 0
            = a * ∑ k ∈ Finset.range bc.rows.length, tangentAt d guess i (bc.rows.getD k 0) * (v.getD k 0 - bc.vals.getD k 0) := by
          have t1 := (residual_affine h hl hs0 (vadd guess (du.map (a * ·)))).2 i hi'
          have t2 := haff0 i hi'
          have t3 := (q3 i hi' hir).1
          rw [hsum i] at t3
          rw [heq i hi' hir] at t2 t3
          rw [← t3, zero_add, t1, Finset.mul_sum]
          have t4 : ∑ j ∈ Finset.range d.p.n, Spec.assembledMat (elements d.p kv0 kf0 d.cellsIn d.facesIn) i j
                * (vadd guess (du.map (a * ·))).getD j 0
              = ∑ j ∈ Finset.range d.p.n, Spec.assembledMat (elements d.p kv0 kf0 d.cellsIn d.facesIn) i j * guess.getD j 0
                + ∑ j ∈ Finset.range d.p.n, a * (tangentAt d guess i j * du.getD j 0) := by
            rw [← Finset.sum_add_distrib]
            apply Finset.sum_congr rfl
            intro j hj
            rw [r2 j (Finset.mem_range.mp hj), hK]
            ring
          rw [t4]
          linear_combination -t2
        rw [hres]
        ring
    · apply Finset.sum_congr rfl
      intro k hk
      have hk' := Finset.mem_range.mp hk
      have e1 : (vadd guess (du.map (a * ·))).getD (bc'.rows.getD k 0) 0 = bc.vals.getD k 0 + a * (v.getD k 0 - bc.vals.getD k 0) := by
        have := r2 _ (hbc.lt _ (rows_getD_mem bc hk'))
        rw [hmeets k hk', q2' k hk'] at this
        exact this
      rw [e1]
      change (_ - v.getD k 0) * (_ - v.getD k 0) = _
      ring
  have hstart : ssq (d.resBc bc' guess) = D := by
    rw [ssq_resBc h bc' hcan, hD, Finset.sum_eq_zero, zero_add]
    · apply Finset.sum_congr rfl
      intro k hk
      have := hmeets k (Finset.mem_range.mp hk)
      change (guess.getD (bc.rows.getD k 0) 0 - v.getD k 0) * (guess.getD (bc.rows.getD k 0) 0 - v.getD k 0) = _
      rw [this]
      ring
    · intro i hi
      split_ifs with hir
      · rfl
      · rw [heq i (Finset.mem_range.mp hi) hir, mul_zero]
  have hD0 : 0 ≤ D := by
    rw [hD]
    exact Finset.sum_nonneg (fun k _ => mul_self_nonneg _)
  have hpos : ∀ r : List K, 0 ≤ ssq r := fun r => List.sum_nonneg (by
    intro x hx
    obtain ⟨y, _, rfl⟩ := List.mem_map.1 hx
    exact mul_self_nonneg y)
  obtain ⟨g1, _, _⟩ := C19_first_acceptable_step E o guess du (E.resf guess) (E.norm (E.resf guess))
  have hnot : (armijo E o guess du (E.resf guess) (E.norm (E.resf guess))).found = false := by
    rw [← Bool.not_eq_true, g1]
    rintro ⟨m, hm', -, t, r, g, e1, e2, e3, e4⟩
    have e1' : rt (ssq (d.resBc bc' (E.axpy guess (o.rho ^ m) du))) = t := Option.some.inj e1
    have e2' : rt (ssq (d.resBc bc' guess)) = r := Option.some.inj e2
    have e3' : ssq (d.resBc bc' guess) = g := Option.some.inj e3
    rw [← e1', ← e2', hrt _ (hpos _), hrt _ (hpos _), htrial, hstart, ← e3', hstart] at e4
    set a := o.rho ^ m with ha
    have ha0 : 0 < a := pow_pos hr m
    have hf := hfail m hm'
    have h5 : 0 ≤ o.c1 * a * D := mul_nonneg (mul_nonneg hc ha0.le) hD0
    have h6 : a * (2 * D) < a * (a * (L + D)) := mul_lt_mul_of_pos_left hf ha0
    nlinarith
  have hcond0 : newtonCond o (E.norm (E.resf guess)) ⟨guess, E.norm (E.resf guess), 0, true⟩ = true := by
    change newtonCond o (some (rt (ssq (d.resBc bc' guess)))) ⟨guess, some (rt (ssq (d.resBc bc' guess))), 0, true⟩ = true
    rw [hstart]
    simp only [newtonCond, flt, fop, Bool.and_true, Bool.and_eq_true, decide_eq_true_eq]
    exact ⟨hm, h1, h2⟩
  set s1 := newtonBody E o ⟨guess, E.norm (E.resf guess), 0, true⟩ with hs1
  have hfound : s1.found = false := hnot
  have hcond1 : newtonCond o (E.norm (E.resf guess)) s1 = false := by simp [newtonCond, hfound]
  have hfin : newtonFinal E o guess = s1 := by
    unfold newtonFinal
    rw [newtonLoop, dif_pos hcond0, ← hs1, newtonLoop, dif_neg (by rw [hcond1]; simp)]
  have : d.newtonSolver backend rt o true true direct true bc (some guess) (some bc')
      = newtonForward E o true true guess := rfl
  rw [this]
  simp [newtonForward, hfin, hfound]

end

/-! ## A stiff bar -/

/-- One bar of stiffness `a`. -/
def barKv (a : ℝ) : Local ℝ := ⟨[0, 0], [a, -a, -a, a]⟩

/-- No boundary faces are used. -/
def barKf (_ : ℕ) (_ : ℝ) : Local ℝ := ⟨[0, 0], [0, 0, 0, 0]⟩

/-- The bar as a problem with two unknowns. -/
noncomputable def barD (a : ℝ) : Discretization ℝ ℝ ℝ where
  p := ⟨[⟨1, 2, 2, [[0, 1]]⟩], 1, [], .full⟩
  kv := fun q => ⟨vadd (localMul 2 (barKv q.1).jac q.2) (barKv q.1).res, (barKv q.1).jac⟩
  kf := fun k q => ⟨vadd (localMul 2 (barKf k q.1).jac q.2) (barKf k q.1).res, (barKf k q.1).jac⟩
  zv := 0
  zf := 0
  cellsIn := [a]
  facesIn := []
  batch := 1

theorem barD_ok (a : ℝ) : DiscOK (barD a) where
  wf := by
    refine ⟨?_, by intro fc hfc; simp [barD] at hfc⟩
    intro v hv
    simp only [barD, List.mem_singleton] at hv
    subst hv
    exact ⟨rfl, by decide, by decide⟩
  batch := Nat.one_pos
  cells := rfl
  faces := .nil
  volJac := fun _ => rfl
  volRes := fun _ => rfl
  faceJac := fun _ _ => rfl
  faceRes := fun _ _ => rfl

theorem barD_lin (a : ℝ) : LinearKernels (barD a) barKv barKf := ⟨fun _ _ => rfl, fun _ _ _ => rfl⟩

theorem barD_shapes0 (a : ℝ) : Shapes (barD a).p barKv barKf (barD a).cellsIn (barD a).facesIn :=
  ⟨rfl, .nil, fun _ => rfl, fun _ => rfl, fun _ _ => rfl, fun _ _ => rfl⟩

/-- First node held at `0`. -/
def barHold : DirichletBC ℝ := ⟨[0], [true, false], [0], 2⟩

theorem barHold_canonical (a : ℝ) : CanonicalBC (barD a).p.n barHold where
  sorted := by simp [barHold]
  lt := by
    change ∀ d ∈ [0], d < 2
    decide
  maskLength := rfl
  mask := by
    change ∀ d < 2, [true, false].getD d false = true ↔ d ∈ [0]
    decide
  vals := rfl
  total := rfl

theorem barHold_used (a : ℝ) : UsedBC (barD a) barHold := by
  intro sol r hr
  simp only [barHold, List.mem_singleton] at hr
  subst hr
  exact ⟨⟨[0, 1], _, _⟩, List.mem_append_left _ (List.mem_map.mpr
    ⟨((a, gather 0 sol [0, 1]), 0), List.mem_cons_self, rfl⟩), by simp⟩

theorem barD_entries (a : ℝ) (sol : List ℝ) : ∀ i < 2, ∀ j < 2,
    tangentAt (barD a) sol i j = ([[a, -a], [-a, a]].getD i []).getD j 0 := by
  intro i hi j hj
  rw [(residual_affine (barD_ok a) (barD_lin a) (barD_shapes0 a) sol).1 i j]
  have he : elements (barD a).p barKv barKf (barD a).cellsIn (barD a).facesIn = [⟨[0, 1], [0, 0], [a, -a, -a, a]⟩] := rfl
  rw [he]
  unfold Spec.assembledMat
  interval_cases i <;> interval_cases j <;> simp [Finset.sum_range_succ]

/-- Exact solver of the eliminated systems of the bar: symmetric `[[1, 0], [0, a]]`, rows only `[[1, 0], [-a, a]]`. -/
noncomputable def barBackend (a : ℝ) (symmetric : Bool) : Backend ℝ := fun _ b _ =>
  [b.getD 0 0, b.getD 1 0 / a + if symmetric then 0 else b.getD 0 0]

theorem barBackend_solves (a : ℝ) (ha : a ≠ 0) (symmetric : Bool) (sol v : List ℝ) (hv : v.length = 1) (b x0 : List ℝ) :
    Spec.Solves (barD a).p.view (barD a).p.n ((barD a).forwardOp (barHold.replaceVals v) true symmetric sol) b
      (barBackend a symmetric ((barD a).forwardOp (barHold.replaceVals v) true symmetric sol) b x0) := by
  have hc : CanonicalBC (barD a).p.n (barHold.replaceVals v) := by
    have := barHold_canonical a
    exact ⟨this.sorted, this.lt, this.maskLength, this.mask, hv, this.total⟩
  refine ⟨rfl, fun i hi => ?_⟩
  have hn : (barD a).p.n = 2 := rfl
  have e : ∀ j < 2, elimEntry [0] symmetric (tangentAt (barD a) sol) i j
      = elimEntry [0] symmetric (fun i j => ([[a, -a], [-a, a]].getD i []).getD j 0) i j := by
    intro j hj
    unfold elimEntry
    rw [barD_entries a sol i hi j hj]
  refine Eq.trans (Finset.sum_congr rfl (fun j hj => ?_)) (?_ : ∑ j ∈ Finset.range 2,
    elimEntry [0] symmetric (fun i j => ([[a, -a], [-a, a]].getD i []).getD j 0) i j
      * (barBackend a symmetric ((barD a).forwardOp (barHold.replaceVals v) true symmetric sol) b x0).getD j 0 = b.getD i 0)
  · have hj' : j < (barD a).p.n := by simpa using hj
    have := completed_jacBcAt (barD_ok a) _ hc (barHold_used a) symmetric sol (Or.inl rfl) i j hi hj'
    rw [this, ← e j hj']
    rfl
  · rw [hn] at hi
    unfold barBackend elimEntry
    interval_cases i <;> cases symmetric <;> simp [Finset.sum_range_succ] <;> field_simp
    ring

/-- The default options of `NewtonOptions` (`/repo/feax/solvers/options.py:505-511`). -/
noncomputable def defaultNewton : NewtonOpts ℝ := ⟨1 / 10 ^ 6, 1 / 10 ^ 8, 100, 1 / 10 ^ 4, 1 / 2, 30, 1 / 10 ^ 30, 1 / 10 ^ 8⟩

theorem sqrt_spec (x : ℝ) (h : 0 ≤ x) : Real.sqrt x * Real.sqrt x = x := Real.mul_self_sqrt h

theorem barD_rest (a : ℝ) : (barD a).residualAt [0, 0] = [0, 0] := by
  obtain ⟨_, h⟩ := residual_affine (barD_ok a) (barD_lin a) (barD_shapes0 a) [0, 0]
  have hlen := residualAt_length (barD_ok a) [0, 0]
  have he : elements (barD a).p barKv barKf (barD a).cellsIn (barD a).facesIn = [⟨[0, 1], [0, 0], [a, -a, -a, a]⟩] := rfl
  have hz : ∀ i < 2, ((barD a).residualAt [0, 0]).getD i 0 = 0 := by
    intro i hi
    rw [h i hi, he]
    unfold Spec.assembledVec
    interval_cases i <;> simp [Finset.sum_range_succ, show (barD a).p.n = 2 from rfl]
  have hlen2 : ((barD a).residualAt [0, 0]).length = 2 := hlen
  match hq : (barD a).residualAt [0, 0], hlen2 with
  | [x, y], _ =>
    have h0 := hz 0 (by norm_num)
    have h1 := hz 1 (by norm_num)
    rw [hq] at h0 h1
    simp at h0 h1
    rw [h0, h1]

/-- C156 (violation, a case): an unloaded bar at rest, of stiffness `a ≥ 10^5`, whose held end is then moved by 1 by
overriding the boundary value. With the default options the nonlinear solver raises; with row elimination it returns the
right answer, the bar moved by 1. -/
theorem C156_stiff_bar_fails (a : ℝ) (ha : 10 ^ 5 ≤ a) :
    (barD a).newtonSolver (barBackend a true) Real.sqrt defaultNewton true true true true barHold none (some (barHold.replaceVals [1]))
      = .error .lineSearch ∧
    (barD a).newtonSolver (barBackend a false) Real.sqrt defaultNewton true true true false barHold none (some (barHold.replaceVals [1]))
      = .ok [1, 1] := by
  have ha0 : a ≠ 0 := by
    have : (0 : ℝ) < 10 ^ 5 := by norm_num
    linarith
  have hg : zeroLikeGuess (barD a).p.n barHold = [0, 0] := by
    simp [zeroLikeGuess, barHold, scatterSet, show (barD a).p.n = 2 from rfl, List.replicate]
  have hcan := barHold_canonical a
  have hcan' : CanonicalBC (barD a).p.n (barHold.replaceVals [1]) :=
    ⟨hcan.sorted, hcan.lt, hcan.maskLength, hcan.mask, rfl, hcan.total⟩
  have hss : ssq ((barD a).resBc (barHold.replaceVals [1]) [0, 0]) = 1 := by
    rw [ssq_resBc (barD_ok a) _ hcan', barD_rest]
    simp [barHold, DirichletBC.replaceVals, show (barD a).p.n = 2 from rfl, Finset.sum_range_succ]
  constructor
  · have key := C156_warm_start_fails (barD_ok a) (barD_lin a) (barD_shapes0 a) barHold hcan (barHold_used a) [1] rfl
      (barBackend a true) Real.sqrt sqrt_spec true defaultNewton [0, 0] rfl
      (by intro k hk; have : k = 0 := by simpa [barHold] using hk
          subst this; rfl)
      (by intro i hi _
          rw [barD_rest]
          have : i < 2 := hi
          interval_cases i <;> rfl)
      (fun _ => Or.inl rfl) (fun b x0 => barBackend_solves a ha0 true _ [1] rfl b x0)
      1 (a * a) (by simp [barHold]) (by
        rw [show (barD a).p.n = 2 from rfl]
        simp [barHold, Finset.sum_range_succ, barD_entries a [0, 0] 1 (by norm_num) 0 (by norm_num)])
      (by norm_num [defaultNewton]) (by norm_num [defaultNewton]) (by
        intro m hm
        have hm' : m < 30 := hm
        have h1 : (1 / 2 : ℝ) ^ 29 ≤ (1 / 2) ^ m := pow_le_pow_of_le_one (by norm_num) (by norm_num) (by omega)
        have h2 : (10 : ℝ) ^ 10 ≤ a * a := by nlinarith
        have h3 : (2 : ℝ) < (1 / 2) ^ 29 * (10 ^ 10 + 1) := by norm_num
        have h4 : (1 / 2 : ℝ) ^ 29 * (10 ^ 10 + 1) ≤ (1 / 2) ^ m * (a * a + 1) := by
          apply mul_le_mul h1 (by linarith) (by positivity) (by positivity)
        simp only [defaultNewton]
        linarith) (by norm_num [defaultNewton]) (by norm_num [defaultNewton]) (by norm_num [defaultNewton])
    rw [← key]
    simp only [Discretization.newtonSolver, Option.getD_none, Option.getD_some, hg]
  · have key := C156_one_step_partial (barD_ok a) (barD_lin a) (barD_shapes0 a) barHold (some (barHold.replaceVals [1])) hcan'
      (barHold_used a) (barBackend a false) Real.sqrt sqrt_spec true false defaultNewton true true [0, 0] rfl
      (by simp) (fun _ => Or.inl rfl) (fun b x0 => barBackend_solves a ha0 false _ [1] rfl b x0)
      (by norm_num [defaultNewton]) (by norm_num [defaultNewton]) (by norm_num [defaultNewton]) (by norm_num [defaultNewton])
      (by rw [Option.getD_some, hss]; norm_num [defaultNewton]) (by rw [Option.getD_some, hss]; norm_num [defaultNewton])
    have e : (barD a).newtonSolver (barBackend a false) Real.sqrt defaultNewton true true true false barHold none
        (some (barHold.replaceVals [1]))
        = (barD a).newtonSolver (barBackend a false) Real.sqrt defaultNewton true true true false barHold (some [0, 0])
        (some (barHold.replaceVals [1])) := by
      simp only [Discretization.newtonSolver, Option.getD_none, Option.getD_some, hg]
    rw [e, key]
    have hr : (barD a).resBc (barHold.replaceVals [1]) [0, 0] = [-1, 0] := by
      simp [Discretization.resBc, barD_rest, applyBcRes, barHold, DirichletBC.replaceVals, scatterSet, gather]
    simp [linearSolver, linearStep, hr, barBackend, vneg, vadd]

/-- The hypotheses of `C156_boundary_values` on the bar, and of `C156_direction` from a guess that meets the new value. -/
example (a : ℝ) (ha : a ≠ 0) (o : NewtonOpts ℝ) := C156_boundary_values (barD_ok a) barHold none (barHold_canonical a)
  (barHold_used a) (barBackend a true) Real.sqrt true true o true true (some [0, 3]) rfl (fun _ => Or.inl rfl)
  (fun sol b x0 => barBackend_solves a ha true sol [0] rfl b x0)

example (a : ℝ) (ha : a ≠ 0) := C156_direction (barD_ok a) barHold (barHold_canonical a)
  (barHold_used a) (barBackend a true) Real.sqrt true true [0, 3] (fun _ => Or.inl rfl)
  (fun b x0 => barBackend_solves a ha true _ [0] rfl b x0)

end Verif.Props
