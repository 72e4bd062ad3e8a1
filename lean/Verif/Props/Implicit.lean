import Verif.Props.TimeLoop
import Verif.Model.Implicit
import Mathlib.Analysis.InnerProductSpace.Basic
import Mathlib.Analysis.Calculus.MeanValue
import Mathlib.Analysis.Calculus.Deriv.Mul
import Mathlib.Analysis.Calculus.Deriv.Add
import Mathlib.Analysis.SpecialFunctions.Exp
import Mathlib.Analysis.SpecialFunctions.ExpDeriv
import Mathlib.Analysis.Calculus.FDeriv.Comp
import Mathlib.Analysis.Calculus.FDeriv.Prod
import Mathlib.Analysis.Calculus.FDeriv.Pow
import Mathlib.Tactic.Module
import Mathlib.Tactic.FieldSimp

/-!
# C153, C154: implicit pipelines
-/

namespace Verif.Props
open Verif.Model Verif.Spec Set
open scoped InnerProductSpace

namespace Spec
variable {E : Type*} [NormedAddCommGroup E] [InnerProductSpace ℝ E]

/-- `u` satisfies the backward-Euler system of `(y', v) = g(y, t)(v)` (for all test functions `v`; the inner product is the
one of the mass matrix), from `old` at `t` with step `dt`, up to `eps`. -/
def BackwardEuler (g : E → ℝ → E → ℝ) (eps : ℝ) (old : E) (t dt : ℝ) (u : E) : Prop :=
  ∀ v, |⟪(1 / dt) • (u - old), v⟫_ℝ - g u (t + dt) v| ≤ eps * ‖v‖

/-- `g` is one-sided Lipschitz with constant `mu`; `mu = 0` for dissipative problems (diffusion, convex energies), however
stiff. -/
def OneSided (g : E → ℝ → E → ℝ) (mu : ℝ) : Prop :=
  ∀ u w t, g u t (u - w) - g w t (u - w) ≤ mu * ‖u - w‖ ^ 2

/-- `y` solves `(y', v) = g(y, t)(v)` on `[a, b]`, and its velocity `dy` varies by at most `M` per unit of time. -/
structure WeakSolution (g : E → ℝ → E → ℝ) (a b : ℝ) (y dy : ℝ → E) (M : ℝ) : Prop where
  deriv : ∀ s ∈ Icc a b, HasDerivWithinAt y (dy s) (Icc a b) s
  weak : ∀ s ∈ Icc a b, ∀ v, ⟪dy s, v⟫_ℝ = g (y s) s v
  smooth : ∀ s ∈ Icc a b, ∀ s' ∈ Icc a b, ‖dy s - dy s'‖ ≤ M * |s - s'|

end Spec

section
variable {E : Type*} [NormedAddCommGroup E] [InnerProductSpace ℝ E]

theorem inner_bound {e d : E} {c x : ℝ} (h : ⟪e - d, e⟫_ℝ ≤ c * ‖e‖ ^ 2 + x * ‖e‖) (hx : 0 ≤ x) : (1 - c) * ‖e‖ ≤ ‖d‖ + x := by
  rcases (norm_nonneg e).eq_or_lt with h0 | h0
  · rw [← h0]
    have := norm_nonneg d
    linarith
  · rw [inner_sub_left, real_inner_self_eq_norm_sq] at h
    have := real_inner_le_norm d e
    have h1 : (1 - c) * ‖e‖ * ‖e‖ ≤ (‖d‖ + x) * ‖e‖ := by nlinarith
    exact le_of_mul_le_mul_right h1 h0

/-- C153: one backward-Euler step does not drive states apart: two steps with the same time and step size, from any two
states, with any solvers that meet the tolerance `eps`, bring the states together, up to the growth `mu` of the problem and
twice the tolerance. From the same state (any two starting points of the solver): the results agree up to the tolerance. -/
theorem C153_step_contracts (g : E → ℝ → E → ℝ) (mu eps : ℝ) (hg : Spec.OneSided g mu) (old old' : E) (t dt : ℝ) (hdt : 0 < dt)
    (heps : 0 ≤ eps) (u w : E) (hu : Spec.BackwardEuler g eps old t dt u) (hw : Spec.BackwardEuler g eps old' t dt w) :
    (1 - dt * mu) * ‖u - w‖ ≤ ‖old - old'‖ + 2 * dt * eps := by
  refine inner_bound ?_ (by positivity)
  have h1 := (abs_le.1 (hu (u - w))).2
  have h2 := (abs_le.1 (hw (u - w))).1
  have h3 := hg u w (t + dt)
  have e : ⟪u - w - (old - old'), u - w⟫_ℝ =
      dt * (⟪(1 / dt) • (u - old), u - w⟫_ℝ - ⟪(1 / dt) • (w - old'), u - w⟫_ℝ) := by
    rw [← inner_sub_left, ← smul_sub, real_inner_smul_left, ← mul_assoc, mul_one_div_cancel hdt.ne', one_mul]
    congr 1
    abel
  rw [e]
  have : ⟪(1 / dt) • (u - old), u - w⟫_ℝ - ⟪(1 / dt) • (w - old'), u - w⟫_ℝ ≤ mu * ‖u - w‖ ^ 2 + 2 * eps * ‖u - w‖ := by
    linarith
  nlinarith [mul_le_mul_of_nonneg_left this hdt.le]

/-- The exact solution satisfies the backward-Euler system up to `M dt`. -/
theorem exact_backward_euler {g : E → ℝ → E → ℝ} {a b : ℝ} {y dy : ℝ → E} {M : ℝ} (h : Spec.WeakSolution g a b y dy M)
    (t dt : ℝ) (ht : a ≤ t) (hdt : 0 < dt) (hb : t + dt ≤ b) : Spec.BackwardEuler g (M * dt) (y t) t dt (y (t + dt)) := by
  have hsub : Icc t (t + dt) ⊆ Icc a b := Icc_subset_Icc ht hb
  have hend : t + dt ∈ Icc t (t + dt) := ⟨by linarith, le_rfl⟩
  have hd : ∀ s ∈ Icc t (t + dt), HasDerivWithinAt (fun s => y s - s • dy (t + dt)) (dy s - dy (t + dt)) (Icc t (t + dt)) s := by
    intro s hs
    have h1 := (h.deriv s (hsub hs)).mono hsub
    have h2 := ((hasDerivWithinAt_id s (Icc t (t + dt))).smul_const (dy (t + dt)))
    rw [one_smul] at h2
    exact h1.sub h2
  have hM : ∀ s ∈ Icc t (t + dt), ‖dy s - dy (t + dt)‖ ≤ M * dt := by
    intro s hs
    refine (h.smooth s (hsub hs) _ (hsub hend)).trans ?_
    have hM0 : 0 ≤ M := by
      have := (norm_nonneg _).trans (h.smooth t (hsub ⟨le_rfl, by linarith⟩) _ (hsub hend))
      rw [show t - (t + dt) = -dt by ring, abs_neg, abs_of_pos hdt] at this
      exact nonneg_of_mul_nonneg_left this hdt
    refine mul_le_mul_of_nonneg_left ?_ hM0
    rw [abs_le]
    constructor <;> linarith [hs.1, hs.2]
  have hb := (convex_Icc t (t + dt)).norm_image_sub_le_of_norm_hasDerivWithin_le hd hM
    (show t ∈ Icc t (t + dt) from ⟨le_rfl, by linarith⟩) hend
  intro v
  rw [← h.weak _ (hsub hend), ← inner_sub_left]
  have e : (1 / dt) • (y (t + dt) - y t) - dy (t + dt) =
      (1 / dt) • (y (t + dt) - (t + dt) • dy (t + dt) - (y t - t • dy (t + dt))) := by
    have : (1 / dt) • (dt • dy (t + dt)) = dy (t + dt) := by rw [smul_smul, one_div_mul_cancel hdt.ne', one_smul]
    rw [show y (t + dt) - (t + dt) • dy (t + dt) - (y t - t • dy (t + dt)) = y (t + dt) - y t - dt • dy (t + dt) by module,
      smul_sub (1 / dt) (y (t + dt) - y t), this]
  rw [e]
  refine (abs_real_inner_le_norm _ _).trans (mul_le_mul_of_nonneg_right ?_ (norm_nonneg _))
  rw [norm_smul, Real.norm_eq_abs, abs_of_pos (by positivity)]
  rw [show t + dt - t = dt by ring, Real.norm_eq_abs, abs_of_pos hdt] at hb
  calc 1 / dt * _ ≤ 1 / dt * (M * dt * dt) := mul_le_mul_of_nonneg_left hb (by positivity)
    _ = M * dt := by field_simp

/-- C153: a backward-Euler run follows the solution. Any run of an implicit pipeline whose solver meets the tolerance `eps`
in every call, with fixed or adapted steps of any sizes up to `H` (with `H mu ≤ 1/2`; for dissipative problems `mu = 0`, so
there is no limit on the steps): every row of the history is within `exp(2 mu (t - a)) (e0 + (t - a) (M H + eps))` of the
solution at the time of that row, `e0` being the error of the initial state. -/
theorem C153_backward_euler_converges {P : Type*} (g : E → ℝ → E → ℝ) (mu : ℝ) (hmu : 0 ≤ mu) (hg : Spec.OneSided g mu)
    (a b : ℝ) (hab : a ≤ b) (y dy : ℝ → E) (M : ℝ) (hM : 0 ≤ M) (hy : Spec.WeakSolution g a b y dy M) (pipe : ImplicitPipe E P ℝ)
    (eps : ℝ) (heps : 0 ≤ eps)
    (hsolver : ∀ old t dt out, 0 < dt → pipe.solver (pipe.updateVars old t dt) old = .ok out →
      Spec.BackwardEuler g eps old t dt out.carry)
    (job : TimeJob E ℝ) (fuel : ℕ) (r : LoopState E ℝ) (H : ℝ) (hstep : job.pipe.step = implicitStep pipe)
    (hta : job.cfg.tStart = a) (htb : job.cfg.tEnd = b) (hpos : PositiveSteps job) (hr : timeRun job fuel = some (.ok r))
    (hH : ∀ x ∈ r.calls.map Prod.snd, x ≤ H) (hHmu : H * mu ≤ 1 / 2) (hH0 : 0 ≤ H) :
    ∀ row ∈ r.hist, ‖row.2.2 - y row.2.1‖ ≤
      Real.exp (2 * mu * (row.2.1 - a)) * (‖job.pipe.init - y a‖ + (row.2.1 - a) * (M * H + eps)) := by
  obtain ⟨hh, _, g3, _, g5, _⟩ := C25_ends_without_overshoot job fuel r hpos (by rw [hta, htb]; exact hab) hr
  rw [hstep, hta] at hh
  rw [htb] at g5
  have hD : 0 ≤ M * H + eps := by positivity
  have main : ∀ k ≤ r.step, ∃ t s, r.hist[k]? = some (k, t, s) ∧ a ≤ t ∧ t ≤ b ∧
      ‖s - y t‖ ≤ Real.exp (2 * mu * (t - a)) * (‖job.pipe.init - y a‖ + (t - a) * (M * H + eps)) := by
    intro k
    induction k with
    | zero => intro _; exact ⟨a, job.pipe.init, hh.first, le_rfl, hab, by simp⟩
    | succ m ih =>
      intro hm
      obtain ⟨t, s, h1, h2, h3, h4⟩ := ih (by omega)
      obtain ⟨s1, t1, s2, hk, e1, e2, e3, e4⟩ := hh.next m (by omega)
      rw [h1] at e1
      simp only [Option.some.injEq, Prod.mk.injEq] at e1
      obtain ⟨-, rfl, rfl⟩ := e1
      have hk0 : 0 < hk := g3 hk (List.mem_of_getElem? e2)
      have hkH : hk ≤ H := hH hk (List.mem_of_getElem? e2)
      have htb' : t + hk ≤ b := g5 _ (List.mem_of_getElem? e3)
      refine ⟨t + hk, s2, e3, by linarith, htb', ?_⟩
      obtain ⟨out, ho, rfl⟩ : ∃ out, pipe.solver (pipe.updateVars s t hk) s = .ok out ∧ out.carry = s2 := by
        unfold implicitStep at e4
        cases ho : pipe.solver (pipe.updateVars s t hk) s with
        | error e => rw [ho] at e4; cases e4
        | ok out => rw [ho] at e4; exact ⟨out, rfl, Except.ok.inj e4⟩
      have hs := hsolver s t hk out hk0 ho
      have hx := exact_backward_euler hy t hk h2 hk0 htb'
      -- the difference of the two systems
      have hstep1 : (1 - hk * mu) * ‖out.carry - y (t + hk)‖ ≤ ‖s - y t‖ + hk * (M * H + eps) := by
        refine inner_bound ?_ (by positivity)
        set u := out.carry
        set w := y (t + hk)
        have h1 := (abs_le.1 (hs (u - w))).2
        have h2 := (abs_le.1 (hx (u - w))).1
        have h3 := hg u w (t + hk)
        have e : ⟪u - w - (s - y t), u - w⟫_ℝ =
            hk * (⟪(1 / hk) • (u - s), u - w⟫_ℝ - ⟪(1 / hk) • (w - y t), u - w⟫_ℝ) := by
          rw [← inner_sub_left, ← smul_sub, real_inner_smul_left, ← mul_assoc, mul_one_div_cancel hk0.ne', one_mul]
          congr 1
          abel
        rw [e]
        have hMk : M * hk * ‖u - w‖ ≤ M * H * ‖u - w‖ :=
          mul_le_mul_of_nonneg_right (mul_le_mul_of_nonneg_left hkH hM) (norm_nonneg _)
        have : ⟪(1 / hk) • (u - s), u - w⟫_ℝ - ⟪(1 / hk) • (w - y t), u - w⟫_ℝ ≤
            mu * ‖u - w‖ ^ 2 + (M * H + eps) * ‖u - w‖ := by linarith
        nlinarith [mul_le_mul_of_nonneg_left this hk0.le]
      have hx0 : 0 ≤ hk * mu := by positivity
      have hx1 : hk * mu ≤ 1 / 2 := (mul_le_mul_of_nonneg_right hkH hmu).trans hHmu
      have hexp : 1 ≤ Real.exp (2 * (hk * mu)) * (1 - hk * mu) := by
        have := Real.add_one_le_exp (2 * (hk * mu))
        have h1 : (2 * (hk * mu) + 1) * (1 - hk * mu) ≤ Real.exp (2 * (hk * mu)) * (1 - hk * mu) :=
          mul_le_mul_of_nonneg_right this (by linarith)
        nlinarith
      have hgrow : 1 ≤ Real.exp (2 * mu * (t - a)) := Real.one_le_exp (mul_nonneg (by positivity) (by linarith))
      calc ‖out.carry - y (t + hk)‖ ≤ Real.exp (2 * (hk * mu)) * (1 - hk * mu) * ‖out.carry - y (t + hk)‖ :=
            le_mul_of_one_le_left (norm_nonneg _) hexp
        _ = Real.exp (2 * (hk * mu)) * ((1 - hk * mu) * ‖out.carry - y (t + hk)‖) := by ring
        _ ≤ Real.exp (2 * (hk * mu)) * (‖s - y t‖ + hk * (M * H + eps)) :=
            mul_le_mul_of_nonneg_left hstep1 (Real.exp_pos _).le
        _ ≤ Real.exp (2 * (hk * mu)) * (Real.exp (2 * mu * (t - a)) * (‖job.pipe.init - y a‖ + (t - a) * (M * H + eps)) +
              Real.exp (2 * mu * (t - a)) * (hk * (M * H + eps))) := by
            refine mul_le_mul_of_nonneg_left (add_le_add h4 ?_) (Real.exp_pos _).le
            exact le_mul_of_one_le_left (by positivity) hgrow
        _ = Real.exp (2 * (hk * mu)) * Real.exp (2 * mu * (t - a)) *
              (‖job.pipe.init - y a‖ + (t + hk - a) * (M * H + eps)) := by ring
        _ = _ := by
            rw [← Real.exp_add]
            congr 2
            ring
  intro row hrow
  obtain ⟨k, hk⟩ := List.mem_iff_getElem?.1 hrow
  have hkl : k < r.hist.length := by
    by_contra hc
    rw [List.getElem?_eq_none (by omega)] at hk
    cases hk
  rw [hh.length] at hkl
  obtain ⟨t, s, h1, _, _, h4⟩ := main k (by omega)
  rw [hk] at h1
  rw [Option.some.inj h1]
  exact h4

end
/-- Decay at any rate `k`, however fast, with a solver that solves the system of one step: whatever the steps, the run is
within `t (k² H)` of `exp(-k t)`. -/
noncomputable def exDecay (k : ℝ) : ImplicitPipe ℝ (ℝ × ℝ) ℝ :=
  ⟨false, fun old _ dt => (old, dt), fun p _ => .ok (.solution (p.1 / (1 + k * p.2)))⟩

example (k : ℝ) (hk : 0 ≤ k) (job : TimeJob ℝ ℝ) (fuel : ℕ) (r : LoopState ℝ ℝ) (H : ℝ) (hinit : job.pipe.init = 1)
    (hstep : job.pipe.step = implicitStep (exDecay k)) (hta : job.cfg.tStart = 0) (htb : job.cfg.tEnd = 1)
    (hpos : PositiveSteps job) (hr : timeRun job fuel = some (.ok r)) (hH : ∀ x ∈ r.calls.map Prod.snd, x ≤ H) (hH0 : 0 ≤ H) :
    ∀ row ∈ r.hist, |row.2.2 - Real.exp (-k * row.2.1)| ≤ row.2.1 * (k ^ 2 * H) := by
  have hd : ∀ s : ℝ, HasDerivAt (fun s : ℝ => Real.exp (-k * s)) (-k * Real.exp (-k * s)) s := by
    intro s
    have := (((hasDerivAt_id s).const_mul (-k)).exp)
    simp only [id, mul_one] at this
    exact this.congr_deriv (mul_comm _ _)
  have hd2 : ∀ s : ℝ, HasDerivAt (fun s : ℝ => -k * Real.exp (-k * s)) (k ^ 2 * Real.exp (-k * s)) s := by
    intro s
    exact ((hd s).const_mul (-k)).congr_deriv (by ring)
  have key := C153_backward_euler_converges (P := ℝ × ℝ) (fun u _ v => -k * u * v) 0 le_rfl
    (by
      intro u w t
      have : k * (u - w) ^ 2 ≥ 0 := by positivity
      nlinarith)
    0 1 zero_le_one (fun s => Real.exp (-k * s)) (fun s => -k * Real.exp (-k * s)) (k ^ 2) (by positivity)
    ⟨fun s _ => (hd s).hasDerivWithinAt, by
      intro s _ v
      simp [mul_comm], by
      intro s hs s' hs'
      have := (convex_Icc (0 : ℝ) 1).norm_image_sub_le_of_norm_hasDerivWithin_le (C := k ^ 2)
        (fun x _ => (hd2 x).hasDerivWithinAt) (by
          intro x hx
          rw [Real.norm_eq_abs, abs_of_nonneg (by positivity)]
          refine mul_le_of_le_one_right (by positivity) (Real.exp_le_one_iff.2 ?_)
          have := mul_nonneg hk hx.1
          linarith) hs' hs
      simpa [Real.norm_eq_abs] using this⟩
    (exDecay k) 0 le_rfl (by
      intro old t dt out hdt ho v
      have h1 : out = .solution (old / (1 + k * dt)) := (Except.ok.inj ho).symm
      subst h1
      have h2 : (1 + k * dt) ≠ 0 := by positivity
      have : ⟪(1 / dt) • (old / (1 + k * dt) - old), v⟫_ℝ - -k * (old / (1 + k * dt)) * v = 0 := by
        simp only [smul_eq_mul, RCLike.inner_apply, conj_trivial]
        field_simp
        ring
      simp only [SolverOut.carry]
      rw [this]
      simp)
    job fuel r H hstep hta htb hpos hr hH (by simp) hH0
  intro row hrow
  have := key row hrow
  simpa [hinit, Real.norm_eq_abs] using this

/-! ## Pseudo time -/

namespace Spec

/-- The state after a chain of steps, as a function of the design: `U p` is the solution for the parameters `p`, `upd` gives
the parameters of a step from the design, the state before and the time. -/
def endState {D S P : Type*} (upd : D → S → ℝ → ℝ → P) (U : P → S) (s0 : S) (schedule : List (ℝ × ℝ)) (d : D) : S :=
  schedule.foldl (fun s q => U (upd d s q.1 q.2)) s0

end Spec

section
variable {D S P W : Type*} [NormedAddCommGroup D] [NormedSpace ℝ D] [NormedAddCommGroup S] [NormedSpace ℝ S]
  [NormedAddCommGroup P] [NormedSpace ℝ P] [NormedAddCommGroup W] [NormedSpace ℝ W]

/-- The pipeline of a design `d`, with a solver that returns the solution whatever it starts from. -/
def pipeOf (pseudo : Bool) (upd : D → S → ℝ → ℝ → P) (U : P → S) (d : D) : ImplicitPipe S P ℝ :=
  ⟨pseudo, upd d, fun p _ => .ok (.flat (U p))⟩

/-- The reverse-mode rules: the solver's, minus the adjoint times the derivative of the residual `F` with respect to the
parameters, where `adj p u c` solves the adjoint system; and that of `update_vars`. -/
noncomputable def rulesOf (upd : D → S → ℝ → ℝ → P) (F : P × S → W) (adj : P → S → (S →L[ℝ] ℝ) → (W →L[ℝ] ℝ)) (d : D) :
    StepVjp S P ℝ (S →L[ℝ] ℝ) (P →L[ℝ] ℝ) (D →L[ℝ] ℝ) where
  solve p u c := -((adj p u c).comp (fderiv ℝ (fun q => F (q, u)) p))
  update s t dt c := (c.comp (fderiv ℝ (fun e => upd e s t dt) d), c.comp (fderiv ℝ (fun x => upd d x t dt) s))

theorem rule_exact (F : P × S → W) (hF : Differentiable ℝ F) (U : P → S) (hU : Differentiable ℝ U) (h0 : ∀ p, F (p, U p) = 0)
    (adj : P → S → (S →L[ℝ] ℝ) → (W →L[ℝ] ℝ))
    (hadj : ∀ p c, (adj p (U p) c).comp (fderiv ℝ (fun u => F (p, u)) (U p)) = c) (p : P) (c : S →L[ℝ] ℝ) :
    -((adj p (U p) c).comp (fderiv ℝ (fun q => F (q, U p)) p)) = c.comp (fderiv ℝ U p) := by
  have hd := (hF (p, U p)).hasFDerivAt
  have h1 : HasFDerivAt (fun q => F (q, U q)) ((fderiv ℝ F (p, U p)).comp ((ContinuousLinearMap.id ℝ P).prod (fderiv ℝ U p))) p :=
    hd.comp p ((hasFDerivAt_id p).prodMk (hU p).hasFDerivAt)
  have h2 : HasFDerivAt (fun q => F (q, U q)) (0 : P →L[ℝ] W) p := by
    simp only [h0]
    exact hasFDerivAt_const 0 p
  have h3 := h1.unique h2
  have e1 : fderiv ℝ (fun q => F (q, U p)) p = (fderiv ℝ F (p, U p)).comp (.inl ℝ P S) :=
    (hd.comp p (hasFDerivAt_prodMk_left p (U p))).fderiv
  have e2 : fderiv ℝ (fun u => F (p, u)) (U p) = (fderiv ℝ F (p, U p)).comp (.inr ℝ P S) :=
    (hd.comp (U p) (hasFDerivAt_prodMk_right p (U p))).fderiv
  have ha := hadj p c
  rw [e2] at ha
  rw [e1]
  ext x
  have hx := congrArg (fun L => (adj p (U p) c) (L x)) h3
  simp only [ContinuousLinearMap.comp_apply, ContinuousLinearMap.prod_apply, ContinuousLinearMap.id_apply,
    zero_apply, map_zero] at hx
  have hx2 : ((x, fderiv ℝ U p x) : P × S) = ContinuousLinearMap.inl ℝ P S x + ContinuousLinearMap.inr ℝ P S (fderiv ℝ U p x) := by
    simp
  rw [hx2, map_add, map_add] at hx
  have hc := congrArg (fun L => L (fderiv ℝ U p x)) ha
  simp only [ContinuousLinearMap.comp_apply] at hc
  simp only [neg_apply, ContinuousLinearMap.comp_apply]
  linarith

omit [NormedAddCommGroup D] [NormedSpace ℝ D] [NormedAddCommGroup S] [NormedSpace ℝ S] [NormedAddCommGroup P] [NormedSpace ℝ P] in
theorem stepChain_pipeOf (pseudo : Bool) (upd : D → S → ℝ → ℝ → P) (U : P → S) (d : D) (s0 : S) (sched : List (ℝ × ℝ)) (q : ℝ × ℝ)
    (recs : List (StepRecord S ℝ)) (u : S) (h : stepChain (pipeOf pseudo upd U d) s0 sched = .ok (u, recs)) :
    stepChain (pipeOf pseudo upd U d) s0 (sched ++ [q]) =
      .ok (U (upd d u q.1 q.2), ⟨u, q.1, q.2, U (upd d u q.1 q.2)⟩ :: recs) := by
  unfold stepChain at h ⊢
  rw [List.foldlM_append, h]
  rfl

omit [NormedAddCommGroup D] [NormedSpace ℝ D] [NormedAddCommGroup S] [NormedSpace ℝ S] [NormedAddCommGroup P] [NormedSpace ℝ P] in
theorem stepChain_value (pseudo : Bool) (upd : D → S → ℝ → ℝ → P) (U : P → S) (d : D) (s0 : S) (sched : List (ℝ × ℝ)) :
    ∃ recs, stepChain (pipeOf pseudo upd U d) s0 sched = .ok (Spec.endState upd U s0 sched d, recs) := by
  induction sched using List.reverseRecOn with
  | nil => exact ⟨[], rfl⟩
  | append_singleton l q ih =>
    obtain ⟨recs, h⟩ := ih
    refine ⟨_, (stepChain_pipeOf pseudo upd U d s0 l q recs _ h).trans (congrArg Except.ok (Prod.ext ?_ rfl))⟩
    simp only [Spec.endState, List.foldl_append, List.foldl_cons, List.foldl_nil]

omit [NormedAddCommGroup D] [NormedSpace ℝ D] [NormedAddCommGroup S] [NormedSpace ℝ S] [NormedAddCommGroup P] [NormedSpace ℝ P] in
theorem endState_append (upd : D → S → ℝ → ℝ → P) (U : P → S) (s0 : S) (l : List (ℝ × ℝ)) (q : ℝ × ℝ) :
    Spec.endState upd U s0 (l ++ [q]) = fun d => U (upd d (Spec.endState upd U s0 l d) q.1 q.2) := by
  funext d
  simp only [Spec.endState, List.foldl_append, List.foldl_cons, List.foldl_nil]

theorem endState_differentiable (upd : D → S → ℝ → ℝ → P) (hupd : ∀ t dt, Differentiable ℝ (fun q : D × S => upd q.1 q.2 t dt))
    (U : P → S) (hU : Differentiable ℝ U) (s0 : S) (sched : List (ℝ × ℝ)) : Differentiable ℝ (Spec.endState upd U s0 sched) := by
  induction sched using List.reverseRecOn with
  | nil => exact differentiable_const s0
  | append_singleton l q ih =>
    rw [endState_append]
    exact hU.comp ((hupd q.1 q.2).comp (differentiable_id.prodMk ih))

theorem fderiv_step (upd : D → S → ℝ → ℝ → P) (hupd : ∀ t dt, Differentiable ℝ (fun q : D × S => upd q.1 q.2 t dt))
    (U : P → S) (hU : Differentiable ℝ U) (X : D → S) (hX : Differentiable ℝ X) (d : D) (t dt : ℝ) :
    fderiv ℝ (fun e => U (upd e (X e) t dt)) d = (fderiv ℝ U (upd d (X d) t dt)).comp
      (fderiv ℝ (fun e => upd e (X d) t dt) d + (fderiv ℝ (fun x => upd d x t dt) (X d)).comp (fderiv ℝ X d)) := by
  have hd := (hupd t dt (d, X d)).hasFDerivAt
  have h1 := (hU (upd d (X d) t dt)).hasFDerivAt.comp d (hd.comp d ((hasFDerivAt_id d).prodMk (hX d).hasFDerivAt))
  have e1 := (HasFDerivAt.comp (f := fun e => (e, X d)) d hd (hasFDerivAt_prodMk_left (𝕜 := ℝ) d (X d))).fderiv
  have e2 := (HasFDerivAt.comp (f := fun x => (d, x)) (X d) hd (hasFDerivAt_prodMk_right (𝕜 := ℝ) d (X d))).fderiv
  have e1' : fderiv ℝ (fun e => upd e (X d) t dt) d = _ := e1
  have e2' : fderiv ℝ (fun x => upd d x t dt) (X d) = _ := e2
  refine (HasFDerivAt.fderiv h1).trans ?_
  rw [e1', e2']
  ext x
  simp only [ContinuousLinearMap.comp_apply, ContinuousLinearMap.prod_apply, ContinuousLinearMap.id_apply,
    add_apply]
  congr 1
  rw [← map_add]
  simp

/-- C154: gradients through a chain of implicit steps. Without `pseudo_time` the reverse pass returns the derivative of the
last state with respect to the design through all steps, for every number of steps, schedule, `update_vars` and solution map
of a residual `F`, with one call of the solver's rule per step. -/
theorem C154_transient_gradient (upd : D → S → ℝ → ℝ → P)
    (hupd : ∀ t dt, Differentiable ℝ (fun q : D × S => upd q.1 q.2 t dt)) (F : P × S → W) (hF : Differentiable ℝ F) (U : P → S)
    (hU : Differentiable ℝ U) (h0 : ∀ p, F (p, U p) = 0) (adj : P → S → (S →L[ℝ] ℝ) → (W →L[ℝ] ℝ))
    (hadj : ∀ p c, (adj p (U p) c).comp (fderiv ℝ (fun u => F (p, u)) (U p)) = c) (s0 : S) (schedule : List (ℝ × ℝ)) (d : D)
    (c : S →L[ℝ] ℝ) :
    ∃ recs, stepChain (pipeOf false upd U d) s0 schedule = .ok (Spec.endState upd U s0 schedule d, recs) ∧
      chainVjp (pipeOf false upd U d) (rulesOf upd F adj d) recs c =
        (c.comp (fderiv ℝ (Spec.endState upd U s0 schedule) d), schedule.length) := by
  induction schedule using List.reverseRecOn generalizing c with
  | nil =>
    refine ⟨[], rfl, ?_⟩
    have : Spec.endState upd U s0 [] = fun _ : D => s0 := rfl
    simp [chainVjp, this]
  | append_singleton l q ih =>
    obtain ⟨recs, h1⟩ := stepChain_value false upd U d s0 l
    refine ⟨_, (stepChain_pipeOf false upd U d s0 l q recs _ h1).trans (by rw [endState_append]), ?_⟩
    set X := Spec.endState upd U s0 l with hX
    obtain ⟨recs', h1', h2⟩ := ih (((c.comp (fderiv ℝ U (upd d (X d) q.1 q.2)))).comp (fderiv ℝ (fun x => upd d x q.1 q.2) (X d)))
    obtain rfl : recs = recs' := by
      rw [h1] at h1'
      exact (Prod.mk.inj (Except.ok.inj h1')).2
    rw [endState_append, fderiv_step upd hupd U hU X (endState_differentiable upd hupd U hU s0 l) d q.1 q.2]
    simp only [chainVjp]
    have hsolve : (rulesOf upd F adj d).solve ((pipeOf false upd U d).updateVars (X d) q.1 q.2) (U (upd d (X d) q.1 q.2)) c =
        c.comp (fderiv ℝ U (upd d (X d) q.1 q.2)) := rule_exact F hF U hU h0 adj hadj _ c
    rw [hsolve, if_neg (by simp [pipeOf])]
    have hup : (rulesOf upd F adj d).update (X d) q.1 q.2 (c.comp (fderiv ℝ U (upd d (X d) q.1 q.2))) =
      ((c.comp (fderiv ℝ U (upd d (X d) q.1 q.2))).comp (fderiv ℝ (fun e => upd e (X d) q.1 q.2) d),
        (c.comp (fderiv ℝ U (upd d (X d) q.1 q.2))).comp (fderiv ℝ (fun x => upd d x q.1 q.2) (X d))) := rfl
    rw [hup, h2]
    simp only [List.length_append, List.length_singleton]
    refine Prod.ext ?_ rfl
    ext x
    simp

/-- C154: with `pseudo_time` the reverse pass calls the solver's rule once and returns the derivative of the last step alone,
the state before it held fixed. -/
theorem C154_pseudo_time_last_step (upd : D → S → ℝ → ℝ → P)
    (hupd : ∀ t dt, Differentiable ℝ (fun q : D × S => upd q.1 q.2 t dt)) (F : P × S → W) (hF : Differentiable ℝ F) (U : P → S)
    (hU : Differentiable ℝ U) (h0 : ∀ p, F (p, U p) = 0) (adj : P → S → (S →L[ℝ] ℝ) → (W →L[ℝ] ℝ))
    (hadj : ∀ p c, (adj p (U p) c).comp (fderiv ℝ (fun u => F (p, u)) (U p)) = c) (s0 : S) (earlier : List (ℝ × ℝ)) (t dt : ℝ)
    (d : D) (c : S →L[ℝ] ℝ) :
    ∃ recs, stepChain (pipeOf true upd U d) s0 (earlier ++ [(t, dt)]) =
        .ok (Spec.endState upd U s0 (earlier ++ [(t, dt)]) d, recs) ∧
      chainVjp (pipeOf true upd U d) (rulesOf upd F adj d) recs c =
        (c.comp (fderiv ℝ (fun e => U (upd e (Spec.endState upd U s0 earlier d) t dt)) d), 1) := by
  obtain ⟨recs, h1⟩ := stepChain_value true upd U d s0 earlier
  refine ⟨_, (stepChain_pipeOf true upd U d s0 earlier (t, dt) recs _ h1).trans (by rw [endState_append]), ?_⟩
  set X := Spec.endState upd U s0 earlier d with hX
  have hsolve : (rulesOf upd F adj d).solve ((pipeOf true upd U d).updateVars X t dt) (U (upd d X t dt)) c =
      c.comp (fderiv ℝ U (upd d X t dt)) := rule_exact F hF U hU h0 adj hadj _ c
  simp only [chainVjp]
  rw [hsolve, if_pos (by simp [pipeOf]), fderiv_step upd hupd U hU (fun _ => X) (differentiable_const _) d t dt]
  refine Prod.ext ?_ rfl
  ext x
  simp [rulesOf]

/-- C154: `pseudo_time` is exact for load stepping: when the parameters of a step do not depend on the state before it (which
then only starts the solver), the gradient it returns is the derivative of the last state through the whole chain. -/
theorem C154_pseudo_time_exact (upd : D → S → ℝ → ℝ → P)
    (hupd : ∀ t dt, Differentiable ℝ (fun q : D × S => upd q.1 q.2 t dt)) (F : P × S → W) (hF : Differentiable ℝ F) (U : P → S)
    (hU : Differentiable ℝ U) (h0 : ∀ p, F (p, U p) = 0) (adj : P → S → (S →L[ℝ] ℝ) → (W →L[ℝ] ℝ))
    (hadj : ∀ p c, (adj p (U p) c).comp (fderiv ℝ (fun u => F (p, u)) (U p)) = c)
    (hload : ∀ e s s' t dt, upd e s t dt = upd e s' t dt) (s0 : S) (schedule : List (ℝ × ℝ)) (hne : schedule ≠ []) (d : D)
    (c : S →L[ℝ] ℝ) :
    ∃ recs, stepChain (pipeOf true upd U d) s0 schedule = .ok (Spec.endState upd U s0 schedule d, recs) ∧
      chainVjp (pipeOf true upd U d) (rulesOf upd F adj d) recs c =
        (c.comp (fderiv ℝ (Spec.endState upd U s0 schedule) d), 1) := by
  obtain ⟨l, ⟨t, dt⟩, rfl⟩ : ∃ l q, schedule = l ++ [q] :=
    ⟨schedule.dropLast, schedule.getLast hne, (List.dropLast_append_getLast hne).symm⟩
  obtain ⟨recs, h1, h2⟩ := C154_pseudo_time_last_step upd hupd F hF U hU h0 adj hadj s0 l t dt d c
  refine ⟨recs, h1, h2.trans ?_⟩
  rw [endState_append]
  congr 3
  funext e
  rw [hload e _ (Spec.endState upd U s0 l e)]

end

/-- The documented warning is needed: for a state carried along (`u = old + d`), two steps, `pseudo_time` returns half of the
derivative. -/
theorem C154_pseudo_time_drops_history :
    ∃ recs, stepChain (pipeOf true (fun (d : ℝ) s _ _ => s + d) id 0) 0 [(0, 1), (1, 1)] = .ok (0, recs) ∧
      (chainVjp (pipeOf true (fun (d : ℝ) s _ _ => s + d) id 0)
        (rulesOf (fun (d : ℝ) s _ _ => s + d) (fun q : ℝ × ℝ => q.2 - q.1) (fun _ _ c => c) 0) recs (.id ℝ ℝ)).1 1 = 1 ∧
      fderiv ℝ (Spec.endState (fun (d : ℝ) s _ _ => s + d) id 0 [(0, 1), (1, 1)]) 0 1 = 2 := by
  obtain ⟨recs, h1, h2⟩ := C154_pseudo_time_last_step (D := ℝ) (fun (d : ℝ) s _ _ => s + d) (fun _ _ => by fun_prop)
    (fun q : ℝ × ℝ => q.2 - q.1) (by fun_prop) id differentiable_id (by simp) (fun _ _ c => c)
    (by
      intro p c
      have : fderiv ℝ (fun u : ℝ => u - p) (id p) = .id ℝ ℝ := by
        rw [fderiv_sub_const]
        exact fderiv_fun_id
      rw [this]
      exact ContinuousLinearMap.comp_id c) 0 [(0, 1)] 1 1 0 (.id ℝ ℝ)
  have e : Spec.endState (fun (d : ℝ) s (_ _ : ℝ) => s + d) id 0 [(0, 1), (1, 1)] = fun d => 0 + d + d := rfl
  refine ⟨recs, h1.trans ?_, ?_, ?_⟩
  · simp [Spec.endState]
  · rw [h2]
    have : (fun e : ℝ => id (Spec.endState (fun (d : ℝ) s (_ _ : ℝ) => s + d) id 0 [(0, 1)] 0 + e)) = fun e => e := by
      funext e
      simp [Spec.endState]
    simp only [this]
    simp
  · rw [e]
    have h : HasFDerivAt (fun d : ℝ => 0 + d + d) (.id ℝ ℝ + .id ℝ ℝ) 0 :=
      ((hasFDerivAt_id (0 : ℝ)).const_add 0).add (hasFDerivAt_id 0)
    rw [h.fderiv]
    norm_num

/-- Load stepping meets the hypotheses: the response `2 u = d t`. -/
example (d : ℝ) : ∃ recs, stepChain (pipeOf true (fun (d : ℝ) (_ : ℝ) t dt => d * (t + dt)) (fun p => p / 2) d) 0 [(0, 1), (1, 1)] =
      .ok (d, recs) ∧
    (chainVjp (pipeOf true (fun (d : ℝ) (_ : ℝ) t dt => d * (t + dt)) (fun p => p / 2) d)
      (rulesOf (fun (d : ℝ) (_ : ℝ) t dt => d * (t + dt)) (fun q : ℝ × ℝ => 2 * q.2 - q.1) (fun _ _ c => (1 / 2 : ℝ) • c) d)
      recs (.id ℝ ℝ)).2 = 1 := by
  obtain ⟨recs, h1, h2⟩ := C154_pseudo_time_exact (D := ℝ) (fun (d : ℝ) (_ : ℝ) t dt => d * (t + dt)) (fun _ _ => by fun_prop)
    (fun q : ℝ × ℝ => 2 * q.2 - q.1) (by fun_prop) (fun p => p / 2) (by fun_prop) (by intro p; simp only; ring)
    (fun _ _ c => (1 / 2 : ℝ) • c)
    (by
      intro p c
      have h : HasFDerivAt (fun u : ℝ => 2 * u - p) ((2 : ℝ) • ContinuousLinearMap.id ℝ ℝ) (p / 2) :=
        ((hasFDerivAt_id (p / 2)).const_mul 2).sub_const p
      rw [h.fderiv]
      ext
      simp) (fun _ _ _ _ _ => rfl) 0 [(0, 1), (1, 1)] (by simp) d (.id ℝ ℝ)
  refine ⟨recs, h1.trans ?_, by rw [h2]⟩
  simp only [Spec.endState, List.foldl_cons, List.foldl_nil]
  norm_num
end Verif.Props
