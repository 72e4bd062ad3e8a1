import Verif.Props.Newton
import Verif.Model.AmgNewton
import Mathlib.Tactic.NormNum
import Mathlib.Data.Rat.Floor

/-!
# The Newton loop that rebuilds its preconditioner (C126)
-/

namespace Verif.Props

open Verif.Model.Newton

variable {K : Type*} [Field K] [LinearOrder K] {V W P : Type*}

theorem hostLoop_congr (E : NewtonEnv K V W) (o : NewtonOpts K) (dir dir' : ℕ → V → V) (st : V → Bool) (init : Option K) (n : ℕ) :
    ∀ it s, (∀ k, it ≤ k → dir k = dir' k) → hostLoop E o dir st init n it s = hostLoop E o dir' st init n it s := by
  induction n with
  | zero => intro it s _; rfl
  | succ n ih =>
    intro it s h
    simp only [hostLoop, h it (le_refl _)]
    split_ifs
    · rfl
    · rfl
    · rfl
    · split
      · rfl
      · exact ih _ _ fun k hk => h k (by omega)

/-- The loop is one of the host-driven loops, its directions those recorded. -/
theorem amgLoop_host (E : NewtonEnv K V W) (A : AmgEnv K V P) (o : NewtonOpts K) (period : Option ℕ) (lagTol : K)
    (init : Option K) (n : ℕ) : ∀ it M s, ∃ dir : ℕ → V → V,
      (amgLoop E A o period lagTol init n it M s).1 = hostLoop E o dir (fun _ => false) init n it s ∧
      ∀ k r, (amgLoop E A o period lagTol init n it M s).2[k]? = some r → dir (it + k) r.sol = r.du := by
  induction n with
  | zero => intro it M s; exact ⟨fun _ v => v, rfl, by simp [amgLoop]⟩
  | succ n ih =>
    intro it M s
    simp only [amgLoop]
    by_cases h1 : flt s.2.1 (some o.tol) = true
    · exact ⟨fun _ v => v, by simp [hostLoop, h1], by simp [h1]⟩
    by_cases h2 : (decide (0 < it) && flt (fop (· / ·) s.2.1 (fop (· + ·) init (some o.tiny))) (some o.relTol)) = true
    · exact ⟨fun _ v => v, by simp only [hostLoop, if_neg h1, if_pos h2], by
        intro k r hr
        simp only [if_neg h1, if_pos h2] at hr
        simp at hr⟩
    simp only [if_neg h1, if_neg h2]
    set c := amgDirection A period lagTol it M s.1 with hc
    cases hb : backtrack E o.rho s.1 c.2.1 s.2.1 o.maxBacktracks 1 with
    | none =>
      refine ⟨fun _ _ => c.2.1, ?_, ?_⟩
      · simp only [hostLoop, if_neg h1, if_neg h2, hb]
        simp
      · intro k r hr
        rw [List.getElem?_singleton] at hr
        split_ifs at hr
        cases hr
        rfl
    | some q =>
      obtain ⟨sol', rn'⟩ := q
      obtain ⟨dir, hd1, hd2⟩ := ih (it + 1) (some c.1) (sol', rn', s.2.2 + 1)
      refine ⟨fun k => if k = it then fun _ => c.2.1 else dir k, ?_, ?_⟩
      · simp only [hostLoop, if_neg h1, if_neg h2, hb, if_true]
        simp only [Bool.false_eq_true, if_false]
        rw [hd1]
        exact hostLoop_congr _ _ _ _ _ _ _ _ _ fun k hk => by rw [if_neg (by omega)]
      · intro k r hr
        cases k with
        | zero =>
          simp only [List.getElem?_cons_zero, Option.some.injEq] at hr
          subst hr
          simp
        | succ k =>
          simp only [List.getElem?_cons_succ] at hr
          have := hd2 k r hr
          simp only
          rw [if_neg (by omega), show it + (k + 1) = it + 1 + k by omega]
          exact this

/-- **C126** (the loop). Whatever the rebuild rule, the reported norm is that of the returned state; the state is the guess or
strictly better; at most `max_iter` steps are accepted; and the convergence flag is set exactly when the absolute or the
relative test holds. -/
theorem C126_result [IsStrictOrderedRing K] (E : NewtonEnv K V W) (A : AmgEnv K V P) (o : NewtonOpts K) (re : Option ℤ) (lagTol : K) (sol0 : V) :
    let r := (amgSolve E A o re lagTol sol0).1
    r.steps ≤ o.maxIter ∧ r.norm = E.norm (E.resf r.sol) ∧
    (r.sol = sol0 ∧ r.steps = 0 ∨ flt r.norm (E.norm (E.resf sol0)) = true) ∧
    (r.converged = true ↔ flt r.norm (some o.tol) = true ∨
      flt (fop (· / ·) r.norm (fop (· + ·) (E.norm (E.resf sol0)) (some o.tiny))) (some o.relTol) = true) := by
  obtain ⟨dir, hd, -⟩ := amgLoop_host E A o (amgPeriod re) lagTol (E.norm (E.resf sol0)) o.maxIter 0 none
    (sol0, E.norm (E.resf sol0), 0)
  have hok : hostSolve E o dir false (fun _ => false) sol0 = .ok (amgSolve E A o re lagTol sol0).1 := by
    unfold hostSolve amgSolve
    simp only
    rw [hd]
    simp
  obtain ⟨h1, h2, h3, h4, -⟩ := C64_host_newton_partial E o dir false (fun _ => false) sol0 _ hok
  exact ⟨h1, h2, h3, h4⟩

omit [Field K] in
/-- The hierarchy and direction of one iteration under a fixed period. -/
theorem amgDirection_periodic (A : AmgEnv K V P) (k : ℕ) (lagTol : K) (it : ℕ) (M : Option P) (sol : V) :
    amgDirection A (some k) lagTol it M sol =
      match M with
      | some M => if it % k = 0 then (A.build sol, A.solve (A.build sol) sol, 1) else (M, A.solve M sol, 0)
      | none => (A.build sol, A.solve (A.build sol) sol, 1) := by
  unfold amgDirection
  cases M with
  | none => rfl
  | some M =>
    by_cases h : it % k = 0
    · simp [h]
    · have : (it % k == 0) = false := by simpa using h
      simp [h, this]

theorem amgLoop_periodic (E : NewtonEnv K V W) (A : AmgEnv K V P) (o : NewtonOpts K) (k : ℕ) (hk : 0 < k) (lagTol : K)
    (init : Option K) (n : ℕ) : ∀ it M s, (it % k ≠ 0 → M.isSome = true) →
      ∀ (j : ℕ) (r : AmgRecord V P), (amgLoop E A o (some k) lagTol init n it M s).2[j]? = some r →
        r.du = A.solve r.hierarchy r.sol ∧ r.builds = (if (it + j) % k = 0 then 1 else 0) ∧
        ((it + j) % k ≤ j → ∃ q, (amgLoop E A o (some k) lagTol init n it M s).2[j - (it + j) % k]? = some q ∧
          r.hierarchy = A.build q.sol) ∧
        (j < (it + j) % k → some r.hierarchy = M) := by
  induction n with
  | zero => intro it M s _ j r hr; simp [amgLoop] at hr
  | succ n ih =>
    intro it M s hM j r
    simp only [amgLoop]
    by_cases h1 : flt s.2.1 (some o.tol) = true
    · simp [h1]
    by_cases h2 : (decide (0 < it) && flt (fop (· / ·) s.2.1 (fop (· + ·) init (some o.tiny))) (some o.relTol)) = true
    · simp only [if_neg h1, if_pos h2]
      intro hr
      simp at hr
    simp only [if_neg h1, if_neg h2]
    set c := amgDirection A (some k) lagTol it M s.1 with hc
    -- the first record
    have hfirst : c.2.1 = A.solve c.1 s.1 ∧ c.2.2 = (if it % k = 0 then 1 else 0) ∧ (it % k = 0 → c.1 = A.build s.1) ∧
        (it % k ≠ 0 → some c.1 = M) := by
      rw [hc, amgDirection_periodic]
      by_cases h0 : it % k = 0
      · cases M <;> simp [h0]
      · cases M with
        | none => simp at hM; exact absurd hM h0
        | some M => simp [h0]
    obtain ⟨f1, f2, f3, f4⟩ := hfirst
    have hzero : ∀ L : List (AmgRecord V P), L[0]? = some ⟨s.1, c.1, c.2.1, c.2.2⟩ →
        c.2.1 = A.solve c.1 s.1 ∧ c.2.2 = (if (it + 0) % k = 0 then 1 else 0) ∧
        ((it + 0) % k ≤ 0 → ∃ q, L[0 - (it + 0) % k]? = some q ∧ c.1 = A.build q.sol) ∧
        (0 < (it + 0) % k → some c.1 = M) := by
      intro L hL
      refine ⟨f1, f2, fun h => ?_, fun h => f4 (by simpa using Nat.pos_iff_ne_zero.mp h)⟩
      have h0 : it % k = 0 := by simpa using h
      exact ⟨_, by simpa [h0] using hL, f3 h0⟩
    cases hb : backtrack E o.rho s.1 c.2.1 s.2.1 o.maxBacktracks 1 with
    | none =>
      intro hr
      rw [List.getElem?_singleton] at hr
      split_ifs at hr with hj
      cases hr
      subst hj
      exact hzero _ rfl
    | some q =>
      obtain ⟨sol', rn'⟩ := q
      simp only
      intro hr
      cases j with
      | zero =>
        simp only [List.getElem?_cons_zero, Option.some.injEq] at hr
        subst hr
        exact hzero _ rfl
      | succ j =>
        simp only [List.getElem?_cons_succ] at hr
        obtain ⟨g1, g2, g3, g4⟩ := ih (it + 1) (some c.1) (sol', rn', s.2.2 + 1) (fun _ => rfl) j r hr
        have e : it + 1 + j = it + (j + 1) := by omega
        rw [e] at g2 g3 g4
        refine ⟨g1, g2, fun hle => ?_, fun hlt => ?_⟩
        · rcases Nat.lt_or_ge j ((it + (j + 1)) % k) with hlt | hge
          · -- the hierarchy of the first record
            have hj : (it + (j + 1)) % k = j + 1 := by omega
            have h0 : it % k = 0 := by
              have := Nat.div_add_mod (it + (j + 1)) k
              rw [hj] at this
              have : it = k * ((it + (j + 1)) / k) := by omega
              rw [this]
              exact Nat.mul_mod_right _ _
            refine ⟨⟨s.1, c.1, c.2.1, c.2.2⟩, by rw [hj]; simp, ?_⟩
            have := g4 (by omega)
            simp only [Option.some.injEq] at this
            rw [this, f3 h0]
          · obtain ⟨q, hq1, hq2⟩ := g3 hge
            refine ⟨q, ?_, hq2⟩
            rw [show j + 1 - (it + (j + 1)) % k = (j - (it + (j + 1)) % k) + 1 by omega]
            simpa using hq1
        · have := g4 (by omega)
          simp only [Option.some.injEq] at this
          rw [this]
          apply f4
          intro h0
          have hlk := Nat.mod_lt (it + (j + 1)) hk
          have : (it + (j + 1)) % k ≤ j + 1 := by
            rw [Nat.add_mod, h0, zero_add, Nat.mod_mod]
            exact Nat.mod_le _ _
          omega

/-- **C126** (fixed period). With `rebuild_every = k ≠ 0` (values below one count as one), iteration `j` builds a hierarchy
exactly when `j` is a multiple of the period, and solves with the one built from the state of the latest such iteration. -/
theorem C126_fixed_period (E : NewtonEnv K V W) (A : AmgEnv K V P) (o : NewtonOpts K) (k : ℤ) (lagTol : K) (sol0 : V) (j : ℕ)
    (r : AmgRecord V P) (hr : (amgSolve E A o (some k) lagTol sol0).2[j]? = some r) :
    let p := (max 1 k).toNat
    r.builds = (if j % p = 0 then 1 else 0) ∧
    ∃ q, (amgSolve E A o (some k) lagTol sol0).2[j / p * p]? = some q ∧ r.du = A.solve (A.build q.sol) r.sol := by
  intro p
  have hp : 0 < p := by simp only [p]; omega
  obtain ⟨g1, g2, g3, -⟩ := amgLoop_periodic E A o p hp lagTol (E.norm (E.resf sol0)) o.maxIter 0 none
    (sol0, E.norm (E.resf sol0), 0) (by simp) j r hr
  rw [zero_add] at g2 g3
  obtain ⟨q, hq1, hq2⟩ := g3 (Nat.mod_le _ _)
  refine ⟨g2, q, ?_, by rw [g1, hq2]⟩
  have : j / p * p = j - j % p := by
    have := Nat.div_add_mod j p
    rw [Nat.mul_comm] at this
    omega
  rw [this]
  exact hq1

theorem amgLoop_adaptive (E : NewtonEnv K V W) (A : AmgEnv K V P) (o : NewtonOpts K) (lagTol : K)
    (init : Option K) (n : ℕ) : ∀ it M s,
      ∀ (j : ℕ) (r : AmgRecord V P), (amgLoop E A o none lagTol init n it M s).2[j]? = some r →
        r.du = A.solve r.hierarchy r.sol ∧
        (r.builds = 1 ∧ r.hierarchy = A.build r.sol ∨
          r.builds = 0 ∧ flt (some lagTol) (A.linRes r.sol r.du) = false ∧
          (∃ i q, i < j ∧ (amgLoop E A o none lagTol init n it M s).2[i]? = some q ∧ q.builds = 1 ∧
            r.hierarchy = A.build q.sol ∨ some r.hierarchy = M)) := by
  induction n with
  | zero => intro it M s j r hr; simp [amgLoop] at hr
  | succ n ih =>
    intro it M s j r
    simp only [amgLoop]
    by_cases h1 : flt s.2.1 (some o.tol) = true
    · simp [h1]
    by_cases h2 : (decide (0 < it) && flt (fop (· / ·) s.2.1 (fop (· + ·) init (some o.tiny))) (some o.relTol)) = true
    · simp only [if_neg h1, if_pos h2]
      intro hr
      simp at hr
    simp only [if_neg h1, if_neg h2]
    set c := amgDirection A none lagTol it M s.1 with hc
    have hfirst : c.2.1 = A.solve c.1 s.1 ∧ (c.2.2 = 1 ∧ c.1 = A.build s.1 ∨
        c.2.2 = 0 ∧ flt (some lagTol) (A.linRes s.1 c.2.1) = false ∧ some c.1 = M) := by
      rw [hc]
      unfold amgDirection
      cases M with
      | none => simp
      | some M =>
        simp only [Option.isNone_none, Bool.true_and]
        split_ifs with h
        · simp
        · exact ⟨rfl, Or.inr ⟨rfl, by simpa using h, rfl⟩⟩
    obtain ⟨f1, f2⟩ := hfirst
    cases hb : backtrack E o.rho s.1 c.2.1 s.2.1 o.maxBacktracks 1 with
    | none =>
      intro hr
      rw [List.getElem?_singleton] at hr
      split_ifs at hr with hj
      cases hr
      refine ⟨f1, ?_⟩
      rcases f2 with h | ⟨ha, hb', hc'⟩
      · exact Or.inl h
      · exact Or.inr ⟨ha, hb', 0, ⟨s.1, c.1, c.2.1, c.2.2⟩, Or.inr hc'⟩
    | some q =>
      obtain ⟨sol', rn'⟩ := q
      simp only
      intro hr
      cases j with
      | zero =>
        simp only [List.getElem?_cons_zero, Option.some.injEq] at hr
        subst hr
        refine ⟨f1, ?_⟩
        rcases f2 with h | ⟨ha, hb', hc'⟩
        · exact Or.inl h
        · exact Or.inr ⟨ha, hb', 0, ⟨s.1, c.1, c.2.1, c.2.2⟩, Or.inr hc'⟩
      | succ j =>
        simp only [List.getElem?_cons_succ] at hr
        obtain ⟨g1, g2⟩ := ih (it + 1) (some c.1) (sol', rn', s.2.2 + 1) j r hr
        refine ⟨g1, ?_⟩
        rcases g2 with h | ⟨ha, hb', i, q, hq⟩
        · exact Or.inl h
        · refine Or.inr ⟨ha, hb', ?_⟩
          rcases hq with ⟨hi, hq, hq1, hq2⟩ | hq
          · exact ⟨i + 1, q, Or.inl ⟨by omega, by simpa using hq, hq1, hq2⟩⟩
          · simp only [Option.some.injEq] at hq
            rcases f2 with ⟨fb, fh⟩ | ⟨-, -, fm⟩
            · exact ⟨0, ⟨s.1, c.1, c.2.1, c.2.2⟩, Or.inl ⟨by omega, by simp, fb, by rw [hq, fh]⟩⟩
            · exact ⟨0, r, Or.inr (by rw [hq, fm])⟩

/-- **C126** (adaptive lag). With `rebuild_every = None` every direction comes either from a hierarchy built from the current
tangent, or from the one of an earlier iteration and then its linear residual was not found above `lag_tol`. Partial: a NaN
residual is not found above anything. -/
theorem C126_adaptive_partial (E : NewtonEnv K V W) (A : AmgEnv K V P) (o : NewtonOpts K) (lagTol : K) (sol0 : V) (j : ℕ)
    (r : AmgRecord V P) (hr : (amgSolve E A o none lagTol sol0).2[j]? = some r) :
    (r.builds = 1 ∧ r.du = A.solve (A.build r.sol) r.sol) ∨
    (r.builds = 0 ∧ flt (some lagTol) (A.linRes r.sol r.du) = false ∧
      ∃ i q, i < j ∧ (amgSolve E A o none lagTol sol0).2[i]? = some q ∧ q.builds = 1 ∧ r.du = A.solve (A.build q.sol) r.sol) := by
  obtain ⟨g1, g2⟩ := amgLoop_adaptive E A o lagTol (E.norm (E.resf sol0)) o.maxIter 0 none
    (sol0, E.norm (E.resf sol0), 0) j r hr
  rcases g2 with ⟨hb, hh⟩ | ⟨hb, hl, i, q, hq⟩
  · exact Or.inl ⟨hb, by rw [g1, hh]⟩
  · rcases hq with ⟨hi, hq, hq1, hq2⟩ | hq
    · exact Or.inr ⟨hb, hl, i, q, hi, hq, hq1, by rw [g1, hq2]⟩
    · cases hq

/-! ### Examples -/

/-- `u² = 4` from `u = 8` in rationals; a hierarchy is the slope it was built from; a solve with it divides by that slope, and
breaks down (NaN, coded as `none`) with a slope more than `limit` times the current one. -/
def exRoot : NewtonEnv ℚ (Option ℚ) (Option ℚ) where
  resf := fun u => u.map fun x => x * x - 4
  norm := fun w => w.map fun x => |x|
  selfDot := fun w => w.map fun x => x * x
  hasNaN := Option.isNone
  axpy := fun u a d => fop (· + ·) u (d.map (a * ·))
  direction := id

def exRootAmg (limit : ℚ) : AmgEnv ℚ (Option ℚ) ℚ where
  build := fun u => 2 * u.getD 0
  solve := fun M u => if 2 * u.getD 0 * limit < M then none else u.map fun x => -(x * x - 4) / M
  linRes := fun u d => d.bind fun d => u.map fun x => |2 * x * d + (x * x - 4)| / |x * x - 4|

def exRootOpts : NewtonOpts ℚ := ⟨1 / 100, 0, 4, 0, 1 / 2, 3, 1 / 1000, 1 / 100⟩

/-- **C126** (violation). A lagged hierarchy whose solve returns NaN is not rebuilt under the adaptive rule (`nan > lag_tol` is
false): the solve stops there, not converged, although rebuilding at that very iteration goes on to converge. -/
theorem C126_nan_not_rebuilt :
    ((amgSolve exRoot (exRootAmg (3 / 2)) exRootOpts none (1 / 2) (some 8)).1.converged = false ∧
      (amgSolve exRoot (exRootAmg (3 / 2)) exRootOpts none (1 / 2) (some 8)).1.steps = 1) ∧
    (amgSolve exRoot (exRootAmg (3 / 2)) exRootOpts (some 1) (1 / 2) (some 8)).1.converged = true := by
  decide +kernel

/-- Two iterations with a period of two: the second keeps the hierarchy of the first. -/
example : ((amgSolve exRoot (exRootAmg 100) exRootOpts (some 2) (1 / 2) (some 8)).2.map fun r => r.builds) = [1, 0, 1, 0] := by
  decide +kernel

/-- The adaptive rule rebuilds when the lagged solve is poor, and not before. -/
example : ((amgSolve exRoot (exRootAmg 100) exRootOpts none (1 / 2) (some 8)).2.map fun r => r.builds) = [1, 0, 1, 0] := by
  decide +kernel

end Verif.Props
