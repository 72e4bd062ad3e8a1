import Verif.Model.Newton
import Mathlib.Tactic.Linarith
import Mathlib.Tactic.Ring
import Mathlib.Tactic.NormNum
import Mathlib.Algebra.Order.Ring.Rat
import Mathlib.Algebra.Order.Field.Rat

/-!
# Newton iteration, line searches, convergence check (C18, C19, C59, C64)
-/

set_option linter.unusedSectionVars false

namespace Verif.Props
open Verif.Model.Newton

variable {K : Type*} [Field K] [LinearOrder K] [IsStrictOrderedRing K] {V W : Type*}

/-- Sufficient decrease at step `a`: the trial residual has no NaN, and
`(|trial|^2 - |res|^2) / 2 <= c1 * a * (-(res . res))`, all norms being numbers. -/
def Acceptable (E : NewtonEnv K V W) (o : NewtonOpts K) (sol du : V) (res : W) (resNorm : Option K)
    (a : K) : Prop :=
  E.hasNaN (E.resf (E.axpy sol a du)) = false ∧
  ∃ t r g, E.norm (E.resf (E.axpy sol a du)) = some t ∧ resNorm = some r ∧ E.selfDot res = some g ∧
    (t * t - r * r) / 2 ≤ o.c1 * a * (-g)

/-- The model's acceptance test is `Acceptable`. -/
theorem acceptable_iff (E : NewtonEnv K V W) (o : NewtonOpts K) (sol du : V) (res : W)
    (resNorm : Option K) (c : LSCarry K V) :
    ((!(E.hasNaN (E.resf (E.axpy sol c.alpha du)))) &&
      fle (fop (· * ·) (some (1 / 2)) (fop (· - ·)
        (fop (· * ·) (E.norm (E.resf (E.axpy sol c.alpha du))) (E.norm (E.resf (E.axpy sol c.alpha du))))
        (fop (· * ·) resNorm resNorm)))
        (fop (· * ·) (some (o.c1 * c.alpha)) ((E.selfDot res).map (fun x => -x)))) = true
      ↔ Acceptable E o sol du res resNorm c.alpha := by
  unfold Acceptable
  rw [Bool.and_eq_true, Bool.not_eq_true']
  apply and_congr Iff.rfl
  cases h1 : E.norm (E.resf (E.axpy sol c.alpha du)) <;> cases h2 : resNorm <;>
    cases h3 : E.selfDot res <;> simp [fop, fle]
  rw [inv_mul_eq_div]

/-- Invariant of the scan after `m` trials. -/
theorem scan_inv (E : NewtonEnv K V W) (o : NewtonOpts K) (sol du : V) (res : W) (resNorm : Option K)
    (m : ℕ) :
    let c := (List.range m).foldl
      (fun c _ => scanFn E o sol du resNorm ((E.selfDot res).map (fun x => -x)) c)
      (⟨1, sol, resNorm, none, false⟩ : LSCarry K V)
    c.alpha = o.rho ^ m ∧
    (c.found = false → ∀ k < m, ¬ Acceptable E o sol du res resNorm (o.rho ^ k)) ∧
    (c.found = true → ∃ k < m, Acceptable E o sol du res resNorm (o.rho ^ k) ∧
      (∀ j < k, ¬ Acceptable E o sol du res resNorm (o.rho ^ j)) ∧
      c.bestAlpha = some (o.rho ^ k) ∧ c.bestSol = E.axpy sol (o.rho ^ k) du ∧
      c.bestNorm = E.norm (E.resf (E.axpy sol (o.rho ^ k) du))) := by
  induction m with
  | zero => simp
  | succ m ih =>
    simp only at ih ⊢
    rw [List.range_succ, List.foldl_append, List.foldl_cons, List.foldl_nil]
    set c := (List.range m).foldl
      (fun c _ => scanFn E o sol du resNorm ((E.selfDot res).map (fun x => -x)) c)
      (⟨1, sol, resNorm, none, false⟩ : LSCarry K V) with hc
    obtain ⟨h1, h2, h3⟩ := ih
    have hacc := acceptable_iff E o sol du res resNorm c
    rw [h1] at hacc
    refine ⟨by simp only [scanFn]; rw [h1, pow_succ], ?_, ?_⟩
    · intro hf k hk
      simp only [scanFn, Bool.or_eq_false_iff] at hf
      rcases Nat.lt_succ_iff_lt_or_eq.mp hk with hlt | rfl
      · exact h2 hf.1 k hlt
      · rw [← hacc, ← h1]
        exact fun h => by rw [h] at hf; exact absurd hf.2 (by simp)
    · intro hf
      cases hcf : c.found with
      | true =>
        obtain ⟨k, hk, ha, hj, e1, e2, e3⟩ := h3 hcf
        refine ⟨k, by omega, ha, hj, ?_, ?_, ?_⟩ <;> simp only [scanFn, hcf] <;> simpa
      | false =>
        simp only [scanFn, hcf, Bool.false_or] at hf
        refine ⟨m, by omega, hacc.mp (by rw [← h1]; exact hf), fun j hj => h2 hcf j hj, ?_, ?_, ?_⟩
        · simp only [scanFn, hcf, Bool.not_false, Bool.and_true]
          rw [if_pos hf, h1]
        · simp only [scanFn, hcf, Bool.not_false, Bool.and_true]
          rw [if_pos hf, h1]
        · simp only [scanFn, hcf, Bool.not_false, Bool.and_true]
          rw [if_pos hf, h1]

/-- **C19**. The line search succeeds exactly if some step among `1, rho, ..., rho^(max_backtracks-1)`
is acceptable; it then returns the first acceptable one (the largest, for `0 < rho < 1`) with its point
and norm; otherwise it reports failure and returns the tiny fallback step. -/
theorem C19_first_acceptable_step (E : NewtonEnv K V W) (o : NewtonOpts K) (sol du : V) (res : W)
    (resNorm : Option K) :
    ((armijo E o sol du res resNorm).found = true ↔
      ∃ k < o.maxBacktracks, Acceptable E o sol du res resNorm (o.rho ^ k)) ∧
    ((armijo E o sol du res resNorm).found = true →
      ∃ k < o.maxBacktracks, Acceptable E o sol du res resNorm (o.rho ^ k) ∧
        (∀ j < k, ¬ Acceptable E o sol du res resNorm (o.rho ^ j)) ∧
        (0 < o.rho → o.rho < 1 → ∀ j < o.maxBacktracks,
          Acceptable E o sol du res resNorm (o.rho ^ j) → o.rho ^ j ≤ o.rho ^ k) ∧
        (armijo E o sol du res resNorm).alpha = some (o.rho ^ k) ∧
        (armijo E o sol du res resNorm).sol = E.axpy sol (o.rho ^ k) du ∧
        (armijo E o sol du res resNorm).norm = E.norm (E.resf (armijo E o sol du res resNorm).sol)) ∧
    ((armijo E o sol du res resNorm).found = false →
      (armijo E o sol du res resNorm).alpha = some o.eps ∧
      (armijo E o sol du res resNorm).sol = E.axpy sol o.eps du ∧
      (armijo E o sol du res resNorm).norm = E.norm (E.resf (armijo E o sol du res resNorm).sol)) := by
  obtain ⟨_, h2, h3⟩ := scan_inv E o sol du res resNorm o.maxBacktracks
  unfold armijo
  simp only
  set c := (List.range o.maxBacktracks).foldl
    (fun c _ => scanFn E o sol du resNorm ((E.selfDot res).map (fun x => -x)) c)
    (⟨1, sol, resNorm, none, false⟩ : LSCarry K V) with hc
  refine ⟨⟨fun hf => ?_, fun ⟨k, hk, ha⟩ => ?_⟩, ?_, ?_⟩
  · obtain ⟨k, hk, ha, _⟩ := h3 hf
    exact ⟨k, hk, ha⟩
  · by_contra hne
    exact h2 (by simpa using hne) k hk ha
  · intro hf
    obtain ⟨k, hk, ha, hj, e1, e2, e3⟩ := h3 hf
    refine ⟨k, hk, ha, hj, ?_, by rw [if_pos hf]; exact e1, by rw [if_pos hf]; exact e2,
      by rw [if_pos hf, if_pos hf, e3, e2]⟩
    intro h0 h1 j _ haj
    have hkj : k ≤ j := by
      by_contra hlt
      exact hj j (by omega) haj
    exact pow_le_pow_of_le_one h0.le h1.le hkj
  · intro hf
    rw [hf]
    exact ⟨rfl, rfl, rfl⟩

/-- States the loop passes through. -/
inductive Reach (E : NewtonEnv K V W) (o : NewtonOpts K) (sol0 : V) : NState K V → Prop
  | init : Reach E o sol0 ⟨sol0, E.norm (E.resf sol0), 0, true⟩
  | step (s : NState K V) : Reach E o sol0 s → newtonCond o (E.norm (E.resf sol0)) s = true →
      Reach E o sol0 (newtonBody E o s)

theorem loop_reach (E : NewtonEnv K V W) (o : NewtonOpts K) (sol0 : V) (s : NState K V)
    (h : Reach E o sol0 s) : Reach E o sol0 (newtonLoop E o (E.norm (E.resf sol0)) s) ∧
      newtonCond o (E.norm (E.resf sol0)) (newtonLoop E o (E.norm (E.resf sol0)) s) = false := by
  induction hm : o.maxIter - s.it using Nat.strongRecOn generalizing s with
  | ind m ih =>
    rw [newtonLoop]
    by_cases hcnd : newtonCond o (E.norm (E.resf sol0)) s = true
    · rw [dif_pos hcnd]
      refine ih _ ?_ _ (Reach.step s h hcnd) rfl
      simp only [newtonCond, Bool.and_eq_true, decide_eq_true_eq] at hcnd
      simp only [newtonBody]
      omega
    · rw [dif_neg hcnd]
      exact ⟨h, by simpa using hcnd⟩

theorem reach_norm (E : NewtonEnv K V W) (o : NewtonOpts K) (sol0 : V) (s : NState K V)
    (h : Reach E o sol0 s) : s.rn = E.norm (E.resf s.sol) ∧ s.it ≤ o.maxIter := by
  cases h with
  | init => exact ⟨rfl, Nat.zero_le _⟩
  | step s h hc =>
    have hs := C19_first_acceptable_step E o s.sol (E.direction s.sol) (E.resf s.sol)
      (E.norm (E.resf s.sol))
    refine ⟨?_, ?_⟩
    · simp only [newtonBody]
      cases hf : (armijo E o s.sol (E.direction s.sol) (E.resf s.sol) (E.norm (E.resf s.sol))).found with
      | true => obtain ⟨_, _, _, _, _, _, _, e⟩ := hs.2.1 hf; exact e
      | false => exact (hs.2.2 hf).2.2
    · simp only [newtonCond, Bool.and_eq_true, decide_eq_true_eq] at hc
      simp only [newtonBody]
      omega

/-- **C18** (bound and truthful reporting). The loop makes at most `max_iter` steps, the carried norm
is the residual norm of the carried solution, and if it stopped before `max_iter` then: the line search
failed, or the norm met the absolute tolerance, or it met the relative tolerance, or the norm is not a
number, which without a failed line search happens only if the very first residual was not a number
(then nothing is iterated and the guess is returned). -/
theorem C18_stops_for_a_reason_partial (E : NewtonEnv K V W) (o : NewtonOpts K) (sol0 : V) :
    (newtonFinal E o sol0).it ≤ o.maxIter ∧
    (newtonFinal E o sol0).rn = E.norm (E.resf (newtonFinal E o sol0).sol) ∧
    ((newtonFinal E o sol0).it < o.maxIter → (newtonFinal E o sol0).found = false ∨
      (∃ r r0, E.norm (E.resf (newtonFinal E o sol0).sol) = some r ∧ E.norm (E.resf sol0) = some r0 ∧
        (r ≤ o.tol ∨ r / max r0 o.tiny ≤ o.relTol)) ∨
      (E.norm (E.resf sol0) = none ∧ (newtonFinal E o sol0).sol = sol0 ∧
        (newtonFinal E o sol0).it = 0)) := by
  obtain ⟨hr, hc⟩ := loop_reach E o sol0 _ (Reach.init (E := E) (o := o) (sol0 := sol0))
  have hn := reach_norm E o sol0 _ hr
  change Reach E o sol0 (newtonFinal E o sol0) at hr
  change newtonCond o _ (newtonFinal E o sol0) = false at hc
  change (newtonFinal E o sol0).rn = _ ∧ _ at hn
  refine ⟨hn.2, hn.1, fun hlt => ?_⟩
  rw [or_iff_not_imp_left]
  intro hf
  have hf' : (newtonFinal E o sol0).found = true := by simpa using hf
  cases h0 : E.norm (E.resf sol0) with
  | none =>
    right
    refine ⟨rfl, ?_⟩
    unfold newtonFinal
    rw [newtonLoop, dif_neg]
    · exact ⟨rfl, rfl⟩
    · rw [h0]; simp [newtonCond, flt]
  | some r0 =>
    left
    rw [h0] at hc
    -- the norm is a number: initially, or because an accepted step has a numeric norm
    have hnum : ∃ r, (newtonFinal E o sol0).rn = some r := by
      revert hf'
      generalize newtonFinal E o sol0 = s at hr ⊢
      intro hf'
      cases hr with
      | init => exact ⟨r0, h0⟩
      | step s hs hcs =>
        have ha := (C19_first_acceptable_step E o s.sol (E.direction s.sol) (E.resf s.sol)
          (E.norm (E.resf s.sol))).2.1 hf'
        obtain ⟨k, _, ⟨_, t, _, _, ht, _⟩, _, _, _, e1, e2⟩ := ha
        exact ⟨t, by simp only [newtonBody]; rw [e2, e1, ht]⟩
    obtain ⟨r, hrn⟩ := hnum
    refine ⟨r, r0, hn.1.symm.trans hrn, rfl, ?_⟩
    simp only [newtonCond, hlt, hf', hrn, decide_true, Bool.true_and, Bool.and_true, flt, fop,
      Bool.and_eq_false_iff, decide_eq_false_iff_not, not_lt] at hc
    exact hc

/-- **C18** (monotone). With exact norms (`res . res = |res|^2`, norms nonnegative), `c1 > 0`,
`rho > 0`, `tol >= 0`: every step of the loop whose line search succeeded strictly decreases the
residual norm, by the sufficient-decrease margin. -/
theorem C18_accepted_steps_decrease (E : NewtonEnv K V W) (o : NewtonOpts K) (sol0 : V)
    (hdot : ∀ w x, E.norm w = some x → E.selfDot w = some (x * x) ∧ 0 ≤ x)
    (hc1 : 0 < o.c1) (hrho : 0 < o.rho) (htol : 0 ≤ o.tol)
    (s : NState K V) (hs : Reach E o sol0 s)
    (hcond : newtonCond o (E.norm (E.resf sol0)) s = true)
    (hfound : (newtonBody E o s).found = true) :
    ∃ r t k, k < o.maxBacktracks ∧ s.rn = some r ∧ (newtonBody E o s).rn = some t ∧
      (newtonBody E o s).sol = E.axpy s.sol (o.rho ^ k) (E.direction s.sol) ∧
      t * t ≤ (1 - 2 * o.c1 * o.rho ^ k) * (r * r) ∧ t < r := by
  have hn := reach_norm E o sol0 s hs
  obtain ⟨k, hk, ⟨_, t, r, g, ht, hr, hg, hle⟩, _, _, _, e1, e2⟩ :=
    (C19_first_acceptable_step E o s.sol (E.direction s.sol) (E.resf s.sol)
      (E.norm (E.resf s.sol))).2.1 hfound
  obtain ⟨hg', hr0⟩ := hdot _ _ hr
  rw [hg] at hg'
  have hge : g = r * r := Option.some.inj hg'
  obtain ⟨_, ht0⟩ := hdot _ _ ht
  have hrn : s.rn = some r := by rw [hn.1, hr]
  have hpos : 0 < r := by
    simp only [newtonCond, Bool.and_eq_true, hrn, flt, decide_eq_true_eq] at hcond
    exact lt_of_le_of_lt htol hcond.1.2.1
  have hmain : t * t ≤ (1 - 2 * o.c1 * o.rho ^ k) * (r * r) := by
    subst hge
    have : (t * t - r * r) / 2 * 2 = t * t - r * r := by ring
    linarith
  refine ⟨r, t, k, hk, hrn, ?_, e1, hmain, ?_⟩
  · simp only [newtonBody]; rw [e2, e1, ht]
  · have hp : 0 < o.c1 * o.rho ^ k * (r * r) :=
      mul_pos (mul_pos hc1 (pow_pos hrho k)) (mul_pos hpos hpos)
    nlinarith

/-- **C18** (consequence): a solve that did not fail never returns a residual larger than that of the
starting point. -/
theorem C18_never_grows (E : NewtonEnv K V W) (o : NewtonOpts K) (sol0 : V)
    (hdot : ∀ w x, E.norm w = some x → E.selfDot w = some (x * x) ∧ 0 ≤ x)
    (hc1 : 0 < o.c1) (hrho : 0 < o.rho) (htol : 0 ≤ o.tol) (r0 : K)
    (h0 : E.norm (E.resf sol0) = some r0) (hf : (newtonFinal E o sol0).found = true) :
    ∃ r, E.norm (E.resf (newtonFinal E o sol0).sol) = some r ∧ r ≤ r0 := by
  have hr := (loop_reach E o sol0 _ (Reach.init (E := E) (o := o) (sol0 := sol0))).1
  change Reach E o sol0 (newtonFinal E o sol0) at hr
  have key : ∀ s, Reach E o sol0 s → s.found = true → ∃ r, s.rn = some r ∧ r ≤ r0 := by
    intro s hs
    induction hs with
    | init => exact fun _ => ⟨r0, h0, le_refl _⟩
    | step s hs hcs ih =>
      intro hfs
      have hsf : s.found = true := by
        simp only [newtonCond, Bool.and_eq_true] at hcs
        exact hcs.2
      obtain ⟨r1, e1, l1⟩ := ih hsf
      obtain ⟨r, t, _, _, e2, e3, _, _, l2⟩ :=
        C18_accepted_steps_decrease E o sol0 hdot hc1 hrho htol s hs hcs hfs
      rw [e1] at e2
      have := Option.some.inj e2
      exact ⟨t, e3, by rw [this] at l1; exact (l2.trans_le l1).le⟩
  obtain ⟨r, e, l⟩ := key _ hr hf
  exact ⟨r, by rw [← (reach_norm E o sol0 _ hr).1, e], l⟩

/-- **C18** (errors). In eager mode with the option set, the solver raises exactly when a line search
failed; if it returns before `max_iter` from a numeric starting residual, the returned point meets a
tolerance. -/
theorem C18_failure_reported (E : NewtonEnv K V W) (o : NewtonOpts K) (sol0 : V) :
    (∀ raiseOnFail eager, newtonForward E o raiseOnFail eager sol0 = .error .lineSearch ↔
      raiseOnFail = true ∧ eager = true ∧ (newtonFinal E o sol0).found = false) ∧
    (∀ raiseOnFail eager u, newtonForward E o raiseOnFail eager sol0 = .ok u → u = (newtonFinal E o sol0).sol) ∧
    (∀ u, newtonForward E o true true sol0 = .ok u → (newtonFinal E o sol0).it < o.maxIter →
      ∀ r0, E.norm (E.resf sol0) = some r0 →
      ∃ r, E.norm (E.resf u) = some r ∧ (r ≤ o.tol ∨ r / max r0 o.tiny ≤ o.relTol)) := by
  unfold newtonForward
  simp only [Bool.true_and]
  refine ⟨?_, ?_, ?_⟩
  · intro r e
    cases r <;> cases e <;> cases h : (newtonFinal E o sol0).found <;> simp
  · intro r e u
    cases r <;> cases e <;> cases h : (newtonFinal E o sol0).found <;> simp [eq_comm]
  · intro u hu hlt r0 h0
    cases hf : (newtonFinal E o sol0).found with
    | false => rw [hf] at hu; simp at hu
    | true =>
      rw [hf] at hu
      simp only [Bool.not_true, Bool.false_eq_true, if_false, Except.ok.injEq] at hu
      subst hu
      rcases (C18_stops_for_a_reason_partial E o sol0).2.2 hlt with h | ⟨r, r0', h1, h2, h3⟩ | ⟨h, _⟩
      · rw [hf] at h; exact absurd h (by simp)
      · rw [h0] at h2
        have := Option.some.inj h2
        subst this
        exact ⟨r, h1, h3⟩
      · rw [h0] at h; exact absurd h (by simp)

/-! ## Host-driven loops (C64) -/

theorem backtrack_spec (E : NewtonEnv K V W) (rho : K) (sol du : V) (rn : Option K) (n : ℕ) (a : K) :
    (∀ q, backtrack E rho sol du rn n a = some q →
      ∃ k < n, q.1 = E.axpy sol (a * rho ^ k) du ∧ q.2 = E.norm (E.resf q.1) ∧ flt q.2 rn = true ∧
        ∀ j < k, flt (E.norm (E.resf (E.axpy sol (a * rho ^ j) du))) rn = false) ∧
    (backtrack E rho sol du rn n a = none →
      ∀ k < n, flt (E.norm (E.resf (E.axpy sol (a * rho ^ k) du))) rn = false) := by
  induction n generalizing a with
  | zero => simp [backtrack]
  | succ n ih =>
    simp only [backtrack]
    by_cases h : flt (E.norm (E.resf (E.axpy sol a du))) rn = true
    · rw [if_pos h]
      refine ⟨fun q hq => ?_, fun hq => by simp at hq⟩
      obtain rfl := Option.some.inj hq
      exact ⟨0, by omega, by simp, rfl, h, by simp⟩
    · rw [if_neg h]
      obtain ⟨h1, h2⟩ := ih (a * rho)
      have hs : ∀ k, a * rho * rho ^ k = a * rho ^ (k + 1) := fun k => by ring
      simp only [hs] at h1 h2
      refine ⟨fun q hq => ?_, fun hq k hk => ?_⟩
      · obtain ⟨k, hk, e1, e2, e3, e4⟩ := h1 q hq
        refine ⟨k + 1, by omega, e1, e2, e3, ?_⟩
        intro j hj
        cases j with
        | zero => simpa using h
        | succ j => exact e4 j (by omega)
      · cases k with
        | zero => simpa using h
        | succ k => exact h2 hq k (by omega)

/-- Why a host-driven loop stopped at `(sol, norm)` after `it` accepted steps. -/
def HostStop (E : NewtonEnv K V W) (o : NewtonOpts K) (dir : ℕ → V → V) (stagnated : V → Bool) (init : Option K)
    (s : V × Option K × ℕ) (it : ℕ) : Prop :=
  flt s.2.1 (some o.tol) = true ∨
  (0 < it ∧ flt (fop (· / ·) s.2.1 (fop (· + ·) init (some o.tiny))) (some o.relTol) = true) ∨
  stagnated (dir it s.1) = true ∨
  ∀ k < o.maxBacktracks,
    flt (E.norm (E.resf (E.axpy s.1 (o.rho ^ k) (dir it s.1)))) s.2.1 = false

theorem hostLoop_spec (E : NewtonEnv K V W) (o : NewtonOpts K) (dir : ℕ → V → V) (stagnated : V → Bool) (init : Option K)
    (n it : ℕ) (s : V × Option K × ℕ) (hs : s.2.1 = E.norm (E.resf s.1)) :
    let s' := hostLoop E o dir stagnated init n it s
    s'.2.1 = E.norm (E.resf s'.1) ∧ s'.2.2 ≤ s.2.2 + n ∧ s.2.2 ≤ s'.2.2 ∧
    (s' = s ∨ flt s'.2.1 s.2.1 = true) ∧
    (s'.2.2 < s.2.2 + n → HostStop E o dir stagnated init s' (it + (s'.2.2 - s.2.2))) := by
  induction n generalizing it s with
  | zero => exact ⟨hs, by simp [hostLoop], le_refl _, Or.inl rfl, fun h => by simp [hostLoop] at h⟩
  | succ n ih =>
    have stop : HostStop E o dir stagnated init s it →
        s.2.1 = E.norm (E.resf s.1) ∧ s.2.2 ≤ s.2.2 + (n + 1) ∧ s.2.2 ≤ s.2.2 ∧
        (s = s ∨ flt s.2.1 s.2.1 = true) ∧
        (s.2.2 < s.2.2 + (n + 1) → HostStop E o dir stagnated init s (it + (s.2.2 - s.2.2))) :=
      fun h => ⟨hs, by omega, le_refl _, Or.inl rfl, fun _ => by simpa using h⟩
    simp only [hostLoop]
    by_cases h1 : flt s.2.1 (some o.tol) = true
    · rw [if_pos h1]; exact stop (Or.inl h1)
    rw [if_neg h1]
    by_cases h2 : (decide (0 < it) && flt (fop (· / ·) s.2.1 (fop (· + ·) init (some o.tiny)))
        (some o.relTol)) = true
    · rw [if_pos h2]
      rw [Bool.and_eq_true, decide_eq_true_eq] at h2
      exact stop (Or.inr (Or.inl h2))
    rw [if_neg h2]
    by_cases h3 : stagnated (dir it s.1) = true
    · rw [if_pos h3]; exact stop (Or.inr (Or.inr (Or.inl h3)))
    rw [if_neg h3]
    obtain ⟨b1, b2⟩ := backtrack_spec E o.rho s.1 (dir it s.1) s.2.1 o.maxBacktracks 1
    simp only [one_mul] at b1 b2
    cases hb : backtrack E o.rho s.1 (dir it s.1) s.2.1 o.maxBacktracks 1 with
    | none => exact stop (Or.inr (Or.inr (Or.inr (b2 hb))))
    | some q =>
      obtain ⟨sol', rn'⟩ := q
      obtain ⟨k, hk, e1, e2, e3, _⟩ := b1 _ hb
      simp only at e1 e2 e3
      have := ih (it + 1) (sol', rn', s.2.2 + 1) e2
      simp only at this ⊢
      set s' := hostLoop E o dir stagnated init n (it + 1) (sol', rn', s.2.2 + 1) with hs'
      obtain ⟨i1, i2, i3, i4, i5⟩ := this
      refine ⟨i1, by omega, by omega, Or.inr ?_, fun hlt => ?_⟩
      · rcases i4 with e | hlt
        · rw [e]; exact e3
        · revert hlt e3
          cases h1 : s'.2.1 <;> cases h2 : rn' <;> cases h3 : s.2.1 <;> simp [flt]
          exact fun a b => b.trans a
      · have h5 := i5 (by omega)
        rwa [show it + 1 + (s'.2.2 - (s.2.2 + 1)) = it + (s'.2.2 - s.2.2) by omega] at h5

/-- **C64**. The host-driven Newton loops (assembled or matrix-free extra residual): if they return,
they made at most `max_iter` accepted steps; the reported norm is that of the returned solution; any
accepted step strictly decreased it, so the result is the guess itself or strictly better; the
`converged` flag is set exactly when the absolute or the relative test holds; and stopping early means a
test was met, the direction vanished (matrix-free loop) or no step of the backtracking decreased the
residual. -/
theorem C64_host_newton_partial (E : NewtonEnv K V W) (o : NewtonOpts K) (dir : ℕ → V → V) (warns : Bool) (stagnated : V → Bool) (sol0 : V)
    (r : HostResult K V) (h : hostSolve E o dir warns stagnated sol0 = .ok r) :
    r.steps ≤ o.maxIter ∧ r.norm = E.norm (E.resf r.sol) ∧
    (r.sol = sol0 ∧ r.steps = 0 ∨ flt r.norm (E.norm (E.resf sol0)) = true) ∧
    (r.converged = true ↔ flt r.norm (some o.tol) = true ∨
      flt (fop (· / ·) r.norm (fop (· + ·) (E.norm (E.resf sol0)) (some o.tiny))) (some o.relTol) = true) ∧
    (r.steps < o.maxIter →
      HostStop E o dir stagnated (E.norm (E.resf sol0)) (r.sol, r.norm, r.steps) r.steps) := by
  have hl := hostLoop_spec E o dir stagnated (E.norm (E.resf sol0)) o.maxIter 0
    (sol0, E.norm (E.resf sol0), 0) rfl
  unfold hostSolve at h
  simp only at h hl
  set s := hostLoop E o dir stagnated (E.norm (E.resf sol0)) o.maxIter 0 (sol0, E.norm (E.resf sol0), 0)
    with hsdef
  by_cases hc : (warns && !(flt s.2.1 (some o.tol) || flt (fop (· / ·) s.2.1
      (fop (· + ·) (E.norm (E.resf sol0)) (some o.tiny))) (some o.relTol)) && o.maxIter == 0) = true
  · rw [if_pos hc] at h; simp at h
  · rw [if_neg hc] at h
    obtain rfl := Except.ok.inj h
    obtain ⟨i1, i2, i3, i4, i5⟩ := hl
    refine ⟨by simpa using i2, i1, ?_, by simp, fun hlt => ?_⟩
    · rcases i4 with e | h4
      · left; rw [e]; exact ⟨rfl, rfl⟩
      · exact Or.inr h4
    · have := i5 (by simpa using hlt)
      simpa using this

/-- **C64** (missing part): with `max_iter = 0` and a guess that is not converged the code reads a loop
variable that was never assigned and fails instead of returning `converged = False`. -/
theorem C64_zero_iterations_fails (E : NewtonEnv K V W) (o : NewtonOpts K) (dir : ℕ → V → V)
    (stagnated : V → Bool)
    (sol0 : V) (h0 : o.maxIter = 0) (h1 : flt (E.norm (E.resf sol0)) (some o.tol) = false)
    (h2 : flt (fop (· / ·) (E.norm (E.resf sol0))
      (fop (· + ·) (E.norm (E.resf sol0)) (some o.tiny))) (some o.relTol) = false) :
    hostSolve E o dir true stagnated sol0 = .error .unboundLocal := by
  unfold hostSolve
  rw [h0]
  simp only [hostLoop, h1, h2]
  rfl

/-! ## C59 -/

/-- **C59**. With the check enabled the solution is returned unchanged if the relative residual is a
number below the threshold, and NaN in every entry otherwise (also when the residual is NaN). -/
theorem C59_flagged_or_unchanged (act : List (Option K) → List (Option K))
    (norm : List (Option K) → Option K) (tiny thr : K) (x b : List (Option K)) :
    ((∃ rn bn, norm (List.zipWith (fop (· - ·)) (act x) b) = some rn ∧ norm b = some bn ∧
        rn / (bn + tiny) < thr) → checkConvergence act norm tiny thr x b = x) ∧
    ((¬ ∃ rn bn, norm (List.zipWith (fop (· - ·)) (act x) b) = some rn ∧ norm b = some bn ∧
        rn / (bn + tiny) < thr) → (checkConvergence act norm tiny thr x b).length = x.length ∧
        ∀ y ∈ checkConvergence act norm tiny thr x b, y = none) := by
  unfold checkConvergence
  simp only
  have key : flt (fop (· / ·) (norm (List.zipWith (fop (· - ·)) (act x) b))
      (fop (· + ·) (norm b) (some tiny))) (some thr) = true ↔
      ∃ rn bn, norm (List.zipWith (fop (· - ·)) (act x) b) = some rn ∧ norm b = some bn ∧
        rn / (bn + tiny) < thr := by
    cases h1 : norm (List.zipWith (fop (· - ·)) (act x) b) <;> cases h2 : norm b <;> simp [flt, fop]
  constructor
  · intro h; rw [if_pos (key.mpr h)]
  · intro h
    rw [if_neg (fun hh => h (key.mp hh))]
    simp

/-! ## Concrete cases -/

/-- A scalar nonlinear residual `u^2 - 4` with its Newton direction. -/
def exE : NewtonEnv ℚ ℚ ℚ where
  resf u := u ^ 2 - 4
  norm w := some |w|
  selfDot w := some (w * w)
  hasNaN _ := false
  axpy s a d := s + a * d
  direction u := -(u ^ 2 - 4) / (2 * u)

/-- Options. -/
def exO : NewtonOpts ℚ := ⟨1 / 100, 1 / 1000000, 5, 1 / 10000, 1 / 2, 4, 1 / 10 ^ 30, 1 / 10 ^ 8⟩

theorem exE_dot : ∀ w x, exE.norm w = some x → exE.selfDot w = some (x * x) ∧ 0 ≤ x := by
  intro w x h
  obtain rfl := Option.some.inj h
  exact ⟨by simp [exE], abs_nonneg w⟩

/-- From `u = 1` the first step goes to `5/2`; the full step is acceptable. -/
theorem exE_accept : Acceptable exE exO 1 (exE.direction 1) (exE.resf 1) (exE.norm (exE.resf 1))
    (exO.rho ^ 0) :=
  ⟨rfl, |(1 + (1 / 2) ^ 0 * (3 / 2)) ^ 2 - 4|, 3, 9, by norm_num [exE, exO], by norm_num [exE],
    by norm_num [exE], by norm_num [exO, abs_of_pos]⟩

example : (armijo exE exO 1 (exE.direction 1) (exE.resf 1) (exE.norm (exE.resf 1))).found = true :=
  (C19_first_acceptable_step exE exO 1 _ _ _).1.mpr ⟨0, by decide, exE_accept⟩

/-- A direction of ascent: no step is acceptable and the search reports failure. -/
example : (armijo exE exO 1 (-(3 / 2)) (exE.resf 1) (exE.norm (exE.resf 1))).found = false := by
  rw [Bool.eq_false_iff]
  intro h
  obtain ⟨k, hk, ⟨_, t, r, g, ht, hr, hg, hle⟩, _⟩ :=
    (C19_first_acceptable_step exE exO 1 (-(3 / 2)) _ _).2.1 h
  have hk' : k < 4 := hk
  simp only [exE, exO, Option.some.injEq] at ht hr hg hle
  subst ht hr hg
  rcases (by omega : k = 0 ∨ k = 1 ∨ k = 2 ∨ k = 3) with rfl | rfl | rfl | rfl <;>
    norm_num [abs_mul_abs_self] at hle

example := C18_stops_for_a_reason_partial exE exO 1
example := C18_failure_reported exE exO 1
example := C18_never_grows exE exO 1 exE_dot (by norm_num [exO]) (by norm_num [exO])
  (by norm_num [exO]) 3 (by norm_num [exE])

/-- The first step of the example meets the hypotheses of the decrease theorem. -/
example :=
  C18_accepted_steps_decrease exE exO 1 exE_dot (by norm_num [exO]) (by norm_num [exO])
    (by norm_num [exO]) _ Reach.init (by
      simp only [newtonCond, exE, exO, flt, fop, Bool.and_eq_true, decide_eq_true_eq]
      norm_num)
    ((C19_first_acceptable_step exE exO 1 _ _ _).1.mpr ⟨0, by decide, exE_accept⟩)

/-- **C18** (behaviour worth knowing): a residual that is not a number at the guess is not an error;
the guess is returned as the solution. -/
theorem C18_nan_guess_returned (E : NewtonEnv K V W) (o : NewtonOpts K) (sol0 : V)
    (h : E.norm (E.resf sol0) = none) : newtonForward E o true true sol0 = .ok sol0 := by
  have : newtonFinal E o sol0 = ⟨sol0, E.norm (E.resf sol0), 0, true⟩ := by
    unfold newtonFinal
    rw [newtonLoop, dif_neg]
    rw [h]; simp [newtonCond, flt]
  unfold newtonForward
  rw [this]
  rfl

/-- An environment whose residual is NaN everywhere. -/
example : newtonForward { exE with norm := fun _ => none } exO true true 1 = .ok 1 :=
  C18_nan_guess_returned _ _ _ rfl

/-- The host loop on the example takes the first step. -/
example : ∃ r, hostSolve exE exO (fun _ => exE.direction) true (fun _ => false) 1 = .ok r := by
  unfold hostSolve
  simp only
  rw [if_neg (by simp [exO])]
  exact ⟨_, rfl⟩

example : hostSolve exE { exO with maxIter := 0 } (fun _ => exE.direction) true (fun _ => false) 1 = .error .unboundLocal :=
  C64_zero_iterations_fails _ _ _ _ _ rfl (by simp only [exE, exO, flt]; norm_num)
    (by simp only [exE, exO, flt, fop]; norm_num)

example := C59_flagged_or_unchanged (K := ℚ) id (fun l => l.getD 0 none) (1 / 10 ^ 12) (1 / 10)
  [some 1] [some 1]

end Verif.Props
