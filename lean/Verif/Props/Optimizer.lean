import Verif.Model.Optimizer
import Mathlib.Algebra.Order.Field.Rat
import Mathlib.Algebra.Order.Archimedean.Basic
import Mathlib.Algebra.Order.Floor.Ring
import Mathlib.Tactic.Linarith
import Mathlib.Tactic.Ring
import Mathlib.Tactic.Positivity

/-!
# C50, C51: the schedule of the topology optimisation driver
-/

namespace Verif.Props
open Verif.Model

/-! ### C51: continuation values -/

section
variable {F : Type*} [Ring F] [LinearOrder F]

/-- The value in phase `n`. -/
def phaseValue (c : Continuation F) (n : ℕ) : F :=
  if c.initial ≤ c.final then min (c.initial + c.step * (n : F)) c.final else max (c.initial + c.step * (n : F)) c.final

theorem valueAt_nat (c : Continuation F) (i : ℕ) : c.valueAt (i : ℤ) = phaseValue c (i / c.updateEvery) := by
  unfold Continuation.valueAt phaseValue
  have h : max 0 ((i : ℤ) / (c.updateEvery : ℤ)) = ((i / c.updateEvery : ℕ) : ℤ) := by
    rw [← Int.natCast_ediv]
    exact max_eq_right (Int.natCast_nonneg _)
  simp only [h, Int.cast_natCast]

theorem valueAt_nonpos (c : Continuation F) (hu : 0 < c.updateEvery) (i : ℤ) (hi : i ≤ 0) :
    c.valueAt i = c.valueAt 0 := by
  unfold Continuation.valueAt
  have h1 : i / (c.updateEvery : ℤ) ≤ 0 := by
    have := Int.ediv_le_ediv (by exact_mod_cast hu : (0 : ℤ) < c.updateEvery) hi
    simpa using this
  have h : max 0 (i / (c.updateEvery : ℤ)) = max 0 ((0 : ℤ) / (c.updateEvery : ℤ)) := by
    rw [max_eq_left h1]
    simp
  simp only [h]

end

section
variable {F : Type*} [Field F] [LinearOrder F] [IsStrictOrderedRing F]

/-- Specification: the step does not lead away from the final value. -/
def StepTowards (c : Continuation F) : Prop :=
  (c.initial ≤ c.final → 0 ≤ c.step) ∧ (c.final < c.initial → c.step ≤ 0)

/-- **C51.** The first value is the initial one, whatever the step. -/
theorem C51_starts_at_initial (c : Continuation F) (i : ℤ) (hu : 0 < c.updateEvery) (hi : i < c.updateEvery) :
    c.valueAt i = c.initial := by
  have h0 : c.valueAt 0 = c.initial := by
    have := valueAt_nat c 0
    rw [Nat.cast_zero] at this
    rw [this, Nat.zero_div]
    unfold phaseValue
    split_ifs with h
    · simp [h]
    · simp [le_of_lt (not_le.1 h)]
  rcases le_or_gt i 0 with h | h
  · rw [valueAt_nonpos c hu i h, h0]
  · obtain ⟨n, rfl⟩ := Int.eq_ofNat_of_zero_le h.le
    rw [← h0]
    have := valueAt_nat c 0
    rw [Nat.cast_zero] at this
    rw [this, Nat.zero_div]
    change c.valueAt (n : ℤ) = _
    rw [valueAt_nat, Nat.div_eq_of_lt (by omega)]

/-- **C51, partial.** For a step that does not lead away from the final value, the value lies between initial and final. Missing:
steps that lead away, for which the claim is false (`C51_not_clamped_to_initial`). -/
theorem C51_between_partial (c : Continuation F) (hs : StepTowards c) (i : ℤ) :
    min c.initial c.final ≤ c.valueAt i ∧ c.valueAt i ≤ max c.initial c.final := by
  unfold Continuation.valueAt
  have hn : (0 : F) ≤ ((max 0 (i / (c.updateEvery : ℤ)) : ℤ) : F) := by
    exact_mod_cast le_max_left _ _
  simp only
  generalize ((max 0 (i / (c.updateEvery : ℤ)) : ℤ) : F) = n at hn ⊢
  split_ifs with h
  · have := mul_nonneg (hs.1 h) hn
    constructor
    · rw [min_eq_left h]
      exact le_min (by linarith) h
    · rw [max_eq_right h]
      exact min_le_right _ _
  · push Not at h
    have := mul_nonneg_of_nonpos_of_nonneg' (hs.2 h) hn
    constructor
    · rw [min_eq_right h.le]
      exact le_max_right _ _
    · rw [max_eq_left h.le]
      exact max_le (by linarith) h.le
where
  mul_nonneg_of_nonpos_of_nonneg' {a b : F} (ha : a ≤ 0) (hb : 0 ≤ b) : a * b ≤ 0 :=
    mul_nonpos_of_nonpos_of_nonneg ha hb

/-- **C51.** Whatever the step, the final value is never passed. -/
theorem C51_never_beyond_final (c : Continuation F) (i : ℤ) :
    (c.initial ≤ c.final → c.valueAt i ≤ c.final) ∧ (c.final < c.initial → c.final ≤ c.valueAt i) := by
  unfold Continuation.valueAt
  simp only
  constructor
  · intro h
    rw [if_pos h]
    exact min_le_right _ _
  · intro h
    rw [if_neg (not_le.2 h)]
    exact le_max_right _ _

/-- **C51.** The value is monotone in the iteration, in the direction of the step. -/
theorem C51_monotone (c : Continuation F) (hu : 0 < c.updateEvery) (i j : ℤ) (hij : i ≤ j) :
    (0 ≤ c.step → c.valueAt i ≤ c.valueAt j) ∧ (c.step ≤ 0 → c.valueAt j ≤ c.valueAt i) := by
  have hn : ((max 0 (i / (c.updateEvery : ℤ)) : ℤ) : F) ≤ ((max 0 (j / (c.updateEvery : ℤ)) : ℤ) : F) := by
    have h := Int.ediv_le_ediv (by exact_mod_cast hu : (0 : ℤ) < c.updateEvery) hij
    exact_mod_cast max_le_max le_rfl h
  unfold Continuation.valueAt
  simp only
  generalize ((max 0 (i / (c.updateEvery : ℤ)) : ℤ) : F) = n at hn ⊢
  generalize ((max 0 (j / (c.updateEvery : ℤ)) : ℤ) : F) = m at hn ⊢
  constructor
  · intro hs
    have := mul_le_mul_of_nonneg_left hn hs
    split_ifs
    · exact min_le_min (by linarith) le_rfl
    · exact max_le_max (by linarith) le_rfl
  · intro hs
    have := mul_le_mul_of_nonpos_left hn hs
    split_ifs
    · exact min_le_min (by linarith) le_rfl
    · exact max_le_max (by linarith) le_rfl

/-- **C51.** A nonzero step towards the final value reaches it, and stays. -/
theorem C51_eventually_final [Archimedean F] (c : Continuation F) (hu : 0 < c.updateEvery) (hs : StepTowards c)
    (h0 : c.step ≠ 0) : ∃ N : ℤ, ∀ i ≥ N, c.valueAt i = c.final := by
  obtain ⟨k, hk⟩ := exists_nat_ge (|c.final - c.initial| / |c.step|)
  have hsp : 0 < |c.step| := abs_pos.2 h0
  rw [div_le_iff₀ hsp] at hk
  refine ⟨(k * c.updateEvery : ℕ), fun i hi => ?_⟩
  have hup : (0 : ℤ) < c.updateEvery := by exact_mod_cast hu
  have hn : (k : ℤ) ≤ i / (c.updateEvery : ℤ) := by
    rw [Int.le_ediv_iff_mul_le hup]
    push_cast at hi
    exact hi
  have hn' : (k : F) ≤ ((max 0 (i / (c.updateEvery : ℤ)) : ℤ) : F) := by
    have : (k : ℤ) ≤ max 0 (i / (c.updateEvery : ℤ)) := hn.trans (le_max_right _ _)
    exact_mod_cast this
  unfold Continuation.valueAt
  simp only
  generalize ((max 0 (i / (c.updateEvery : ℤ)) : ℤ) : F) = n at hn' ⊢
  split_ifs with h
  · have h1 : 0 < c.step := lt_of_le_of_ne (hs.1 h) (Ne.symm h0)
    rw [abs_of_pos h1, abs_of_nonneg (by linarith)] at hk
    have h2 := mul_le_mul_of_nonneg_left hn' h1.le
    exact min_eq_right (by linarith [mul_comm c.step (k : F)])
  · push Not at h
    have h1 : c.step < 0 := lt_of_le_of_ne (hs.2 h) h0
    rw [abs_of_neg h1, abs_of_neg (by linarith)] at hk
    have h2 := mul_le_mul_of_nonpos_left hn' h1.le
    exact max_eq_right (by nlinarith [mul_comm c.step (k : F)])

/-- **C51 fails.** The docstring says that the value is always clamped between `initial` and `final`; with a step that leads away
from `final` it leaves the interval, without bound. -/
theorem C51_not_clamped_to_initial (B : F) [Archimedean F] :
    ∃ i : ℤ, (⟨1, 8, 50, -1⟩ : Continuation F).valueAt i < B := by
  obtain ⟨k, hk⟩ := exists_nat_gt (1 - B)
  refine ⟨((50 * k : ℕ) : ℤ), ?_⟩
  rw [valueAt_nat]
  unfold phaseValue
  have h8 : (1 : F) ≤ 8 := by norm_num
  have hk' : 50 * k / 50 = k := by omega
  simp only [h8, if_true, hk']
  refine (min_le_left _ _).trans_lt ?_
  linarith

/-- The Heaviside example of the docstring meets the hypotheses, and takes the documented values. -/
example : StepTowards (⟨1, 8, 50, 1⟩ : Continuation ℚ) ∧ (⟨1, 8, 50, 1⟩ : Continuation ℚ).valueAt 49 = 1 ∧
    (⟨1, 8, 50, 1⟩ : Continuation ℚ).valueAt 50 = 2 ∧ (⟨1, 8, 50, 1⟩ : Continuation ℚ).valueAt 1000 = 8 := by
  refine ⟨⟨fun _ => by norm_num, fun h => by norm_num at h⟩, by decide +kernel, by decide +kernel, by decide +kernel⟩

/-! ### C50: the schedule -/

/-- Once a phase brings no change, no later phase does. -/
theorem phase_stable (c : Continuation F) {n : ℕ} (h : phaseValue c n = phaseValue c (n + 1)) :
    ∀ m ≥ n, phaseValue c m = phaseValue c n := by
  intro m hm
  have hm' : (n : F) ≤ (m : F) := by exact_mod_cast hm
  have hn0 : (0 : F) ≤ n := Nat.cast_nonneg n
  unfold phaseValue at h ⊢
  push_cast at h
  rcases lt_trichotomy c.step 0 with hs | hs | hs
  · have e1 := mul_le_mul_of_nonpos_left hm' hs.le
    have e2 := mul_nonpos_of_nonpos_of_nonneg hs.le hn0
    split_ifs at h ⊢ with hc
    · rw [min_eq_left (by linarith), min_eq_left (by linarith)] at h
      linarith
    · by_cases hf : c.initial + c.step * n ≤ c.final
      · rw [max_eq_right hf, max_eq_right (by linarith)]
      · push Not at hf
        rw [max_eq_left hf.le] at h
        rcases le_total (c.initial + c.step * (n + 1)) c.final with h2 | h2
        · rw [max_eq_right h2] at h; linarith
        · rw [max_eq_left h2] at h; linarith
  · simp [hs]
  · have e1 := mul_le_mul_of_nonneg_left hm' hs.le
    have e2 := mul_nonneg hs.le hn0
    split_ifs at h ⊢ with hc
    · by_cases hf : c.final ≤ c.initial + c.step * n
      · rw [min_eq_right hf, min_eq_right (by linarith)]
      · push Not at hf
        rw [min_eq_left hf.le] at h
        rcases le_total c.final (c.initial + c.step * (n + 1)) with h2 | h2
        · rw [min_eq_right h2] at h; linarith
        · rw [min_eq_left h2] at h; linarith
    · push Not at hc
      rw [max_eq_left (by linarith), max_eq_left (by linarith)] at h
      linarith

variable {X M : Type*}

theorem nextChange_le (conts : List (String × Continuation F)) (maxIter iter : ℕ) :
    nextContinuationChange conts maxIter iter ≤ maxIter ∧
    ∀ kc ∈ conts, (iter / kc.2.updateEvery + 1) * kc.2.updateEvery < maxIter →
      kc.2.valueAt iter ≠ kc.2.valueAt (((iter / kc.2.updateEvery + 1) * kc.2.updateEvery : ℕ) : ℤ) →
      nextContinuationChange conts maxIter iter ≤ (iter / kc.2.updateEvery + 1) * kc.2.updateEvery := by
  unfold nextContinuationChange
  induction conts using List.reverseRecOn with
  | nil => simp
  | append_singleton l a ih =>
    rw [List.foldl_append]
    simp only [List.foldl_cons, List.foldl_nil]
    set r := List.foldl _ maxIter l with hr
    obtain ⟨h1, h2⟩ := ih
    have hle : (if (iter / a.2.updateEvery + 1) * a.2.updateEvery < maxIter then
        if a.2.valueAt iter ≠ a.2.valueAt (((iter / a.2.updateEvery + 1) * a.2.updateEvery : ℕ) : ℤ) then
          min r ((iter / a.2.updateEvery + 1) * a.2.updateEvery) else r else r) ≤ r := by
      split_ifs
      · exact min_le_left _ _
      · exact le_rfl
      · exact le_rfl
    refine ⟨hle.trans h1, ?_⟩
    intro kc hkc hb hv
    rcases List.mem_append.1 hkc with hk | hk
    · exact hle.trans (h2 kc hk hb hv)
    · rw [List.mem_singleton] at hk
      subst hk
      rw [if_pos hb, if_pos hv]
      exact min_le_right _ _

theorem nextChange_gt (conts : List (String × Continuation F)) (maxIter iter : ℕ) (hi : iter < maxIter)
    (hu : ∀ kc ∈ conts, 0 < kc.2.updateEvery) : iter < nextContinuationChange conts maxIter iter := by
  unfold nextContinuationChange
  induction conts using List.reverseRecOn with
  | nil => simpa using hi
  | append_singleton l a ih =>
    rw [List.foldl_append]
    simp only [List.foldl_cons, List.foldl_nil]
    have h1 := ih fun kc hk => hu kc (List.mem_append_left _ hk)
    have h2 : iter < (iter / a.2.updateEvery + 1) * a.2.updateEvery := by
      have := Nat.lt_div_mul_add (a := iter) (hu a (by simp))
      rw [add_mul, one_mul]; exact this
    split_ifs
    · exact lt_min h1 h2
    · exact h1
    · exact h1

/-- No parameter changes before the next change. -/
theorem params_const (conts : List (String × Continuation F)) (maxIter iter : ℕ)
    (hu : ∀ kc ∈ conts, 0 < kc.2.updateEvery) (j : ℕ) (hij : iter ≤ j) (hjm : j < maxIter)
    (hj : j < nextContinuationChange conts maxIter iter) :
    ∀ kc ∈ conts, kc.2.valueAt j = kc.2.valueAt iter := by
  intro kc hk
  have h2 := (nextChange_le conts maxIter iter).2 kc hk
  have hup := hu kc hk
  rw [valueAt_nat, valueAt_nat]
  rcases Nat.lt_or_ge j ((iter / kc.2.updateEvery + 1) * kc.2.updateEvery) with h | h
  · have h3 : j / kc.2.updateEvery < iter / kc.2.updateEvery + 1 := (Nat.div_lt_iff_lt_mul hup).2 h
    have h4 := Nat.div_le_div_right (c := kc.2.updateEvery) hij
    rw [show j / kc.2.updateEvery = iter / kc.2.updateEvery by omega]
  · by_cases hv : kc.2.valueAt iter = kc.2.valueAt (((iter / kc.2.updateEvery + 1) * kc.2.updateEvery : ℕ) : ℤ)
    · rw [valueAt_nat, valueAt_nat, Nat.mul_div_cancel _ hup] at hv
      exact phase_stable kc.2 hv _ (Nat.div_le_div_right hij)
    · exact absurd (h2 (by omega) hv) (by omega)

/-- How many remeshes are due at iteration `i`. -/
def adaptsAt (a : Option Adaptive) (i : ℕ) : ℕ :=
  match a with
  | none => 0
  | some a => min a.nAdaptsMax (i / a.adaptEvery)

/-- Specification of the driver's inputs: all periods are positive, and the inner optimiser makes at least one evaluation and at
most as many as its budget. -/
structure ValidSetup (c : OptSetup F X M) : Prop where
  update : ∀ kc ∈ c.conts, 0 < kc.2.updateEvery
  adapt : ∀ a, c.adaptive = some a → 0 < a.adaptEvery
  inner : ∀ s budget, 0 < budget → 1 ≤ (c.inner s budget).1 ∧ (c.inner s budget).1 ≤ budget

/-- Invariant of the loop. -/
structure LoopInv (c : OptSetup F X M) (s : OptState F X M) : Prop where
  iter_le : s.iter ≤ c.maxIter
  adapts_eq : s.iter < c.maxIter → s.adapts = adaptsAt c.adaptive s.iter
  adapts_end : s.iter = c.maxIter → s.adapts = adaptsAt c.adaptive (s.iter - 1)
  numbers : s.evals.map (·.number) = List.range' 1 s.iter
  params : ∀ e ∈ s.evals, e.params = paramsAt c.conts (e.number - 1)
  meshes : ∀ e ∈ s.evals, e.mesh = adaptsAt c.adaptive (e.number - 1)
  remeshes : s.remeshes = (List.range s.adapts).map fun i => (i + 1) * ((c.adaptive.map (·.adaptEvery)).getD 0)
  gens : ∀ e ∈ s.evals, e.optimiser ≤ s.optimisers
  same : ∀ e ∈ s.evals, ∀ e' ∈ s.evals, e.optimiser = e'.optimiser → e.params = e'.params ∧ e.mesh = e'.mesh
  current : s.needNew = false → s.iter < c.maxIter → ∀ e ∈ s.evals, e.optimiser = s.optimisers →
    e.params = paramsAt c.conts s.iter ∧ e.mesh = s.adapts

theorem nextStop_bounds (c : OptSetup F X M) (h : ValidSetup c) (s : OptState F X M) (hi : s.iter < c.maxIter) :
    s.iter < nextStop c s ∧ nextStop c s ≤ c.maxIter ∧ nextStop c s ≤ nextContinuationChange c.conts c.maxIter s.iter ∧
    ∀ a, c.adaptive = some a → s.adapts < a.nAdaptsMax → nextStop c s ≤ (s.iter / a.adaptEvery + 1) * a.adaptEvery := by
  have h1 := nextChange_gt c.conts c.maxIter s.iter hi h.update
  unfold nextStop
  cases ha : c.adaptive with
  | none =>
    refine ⟨lt_min hi h1, min_le_left _ _, min_le_right _ _, ?_⟩
    intro a h; cases h
  | some a =>
    simp only
    have h2 : s.iter < (s.iter / a.adaptEvery + 1) * a.adaptEvery := by
      have := Nat.lt_div_mul_add (a := s.iter) (h.adapt a ha)
      rw [add_mul, one_mul]; exact this
    split_ifs with hl
    · refine ⟨lt_min (lt_min hi h1) h2, (min_le_left _ _).trans (min_le_left _ _),
        (min_le_left _ _).trans (min_le_right _ _), ?_⟩
      intro a' h' _
      cases h'
      exact min_le_right _ _
    · refine ⟨lt_min hi h1, min_le_left _ _, min_le_right _ _, ?_⟩
      intro a' h' h''
      cases h'
      exact absurd h'' hl

theorem adapts_const (c : OptSetup F X M) (h : ValidSetup c) (s : OptState F X M) (hi : s.iter < c.maxIter)
    (ha : s.adapts = adaptsAt c.adaptive s.iter) (j : ℕ) (hij : s.iter ≤ j) (hj : j < nextStop c s) :
    adaptsAt c.adaptive j = s.adapts := by
  have hb := (nextStop_bounds c h s hi).2.2.2
  rw [ha]
  unfold adaptsAt at ha ⊢
  cases hc : c.adaptive with
  | none => rfl
  | some a =>
    rw [hc] at ha
    simp only at ha ⊢
    have h4 := Nat.div_le_div_right (c := a.adaptEvery) hij
    by_cases hl : s.adapts < a.nAdaptsMax
    · have h5 := hb a hc hl
      have h6 : j / a.adaptEvery < s.iter / a.adaptEvery + 1 :=
        (Nat.div_lt_iff_lt_mul (h.adapt a hc)).2 (lt_of_lt_of_le hj h5)
      rw [show j / a.adaptEvery = s.iter / a.adaptEvery by omega]
    · omega

theorem pass_inv (c : OptSetup F X M) (h : ValidSetup c) (s : OptState F X M) (hs : LoopInv c s) (hi : s.iter < c.maxIter) :
    LoopInv c (optPass c s) ∧ s.iter < (optPass c s).iter := by
  obtain ⟨b1, b2, b3, b4⟩ := nextStop_bounds c h (beginPass c s) hi
  set s1 := beginPass c s with hs1
  have e1 : s1.iter = s.iter := rfl
  have e2 : s1.adapts = s.adapts := rfl
  have hadapt := hs.adapts_eq hi
  obtain ⟨m1, m2⟩ := h.inner s1 (nextStop c s1 - s1.iter) (by omega)
  set s2 := optimise c s1 with hs2
  set m := (c.inner s1 (nextStop c s1 - s1.iter)).1 with hm
  have f1 : s2.iter = s.iter + m := rfl
  have f2 : s2.adapts = s.adapts := rfl
  have f3 : s2.remeshes = s.remeshes := rfl
  have f4 : s2.optimisers = s1.optimisers := rfl
  have f5 : s2.needNew = false := rfl
  have f6 : s2.evals = s.evals ++ (List.range m).map fun i =>
      (⟨s.iter + i + 1, paramsAt c.conts s.iter, s1.optimisers, s.adapts⟩ : Evaluation F) := rfl
  have hconst : ∀ j, s.iter ≤ j → j < nextStop c s1 → paramsAt c.conts j = paramsAt c.conts s.iter := by
    intro j h1 h2
    unfold paramsAt
    apply List.map_congr_left
    intro kc hk
    rw [params_const c.conts c.maxIter s.iter h.update j h1 (by omega) (by
      have : s1.iter = s.iter := rfl
      rw [this] at b3
      omega) kc hk]
  have hmesh : ∀ j, s.iter ≤ j → j < nextStop c s1 → adaptsAt c.adaptive j = s.adapts :=
    fun j h1 h2 => adapts_const c h s1 hi hadapt j h1 h2
  -- facts on the evaluations after the call
  have hnum : s2.evals.map (·.number) = List.range' 1 s2.iter := by
    rw [f6, List.map_append, hs.numbers, List.map_map, f1, ← List.range'_append_1]
    congr 1
    rw [List.range'_eq_map_range]
    apply List.map_congr_left
    intro i _
    simp only [Function.comp]
    omega
  have hpar : ∀ e ∈ s2.evals, e.params = paramsAt c.conts (e.number - 1) := by
    intro e he
    rw [f6] at he
    rcases List.mem_append.1 he with he | he
    · exact hs.params e he
    · obtain ⟨i, hi', rfl⟩ := List.mem_map.1 he
      have := List.mem_range.1 hi'
      exact (hconst (s.iter + i + 1 - 1) (by omega) (by omega)).symm
  have hmes : ∀ e ∈ s2.evals, e.mesh = adaptsAt c.adaptive (e.number - 1) := by
    intro e he
    rw [f6] at he
    rcases List.mem_append.1 he with he | he
    · exact hs.meshes e he
    · obtain ⟨i, hi', rfl⟩ := List.mem_map.1 he
      have := List.mem_range.1 hi'
      exact (hmesh (s.iter + i + 1 - 1) (by omega) (by omega)).symm
  have hgen1 : ∀ e ∈ s.evals, e.optimiser ≤ s1.optimisers ∧ (s.needNew = true → e.optimiser < s1.optimisers) := by
    intro e he
    have := hs.gens e he
    constructor
    · change _ ≤ (if s.needNew then s.optimisers + 1 else s.optimisers)
      split_ifs <;> omega
    · intro hn
      change _ < (if s.needNew then s.optimisers + 1 else s.optimisers)
      rw [if_pos hn]
      omega
  have hgen : ∀ e ∈ s2.evals, e.optimiser ≤ s2.optimisers := by
    intro e he
    rw [f6] at he
    rcases List.mem_append.1 he with he | he
    · exact (hgen1 e he).1
    · obtain ⟨i, hi', rfl⟩ := List.mem_map.1 he
      exact le_rfl
  have hcur : ∀ e ∈ s2.evals, e.optimiser = s1.optimisers → e.params = paramsAt c.conts s.iter ∧ e.mesh = s.adapts := by
    intro e he hg
    rw [f6] at he
    rcases List.mem_append.1 he with he | he
    · cases hn : s.needNew with
      | true => exact absurd hg (by have := (hgen1 e he).2 hn; omega)
      | false =>
        refine hs.current hn hi e he ?_
        rw [hg]
        change (if s.needNew then s.optimisers + 1 else s.optimisers) = _
        rw [hn]
        rfl
    · obtain ⟨i, hi', rfl⟩ := List.mem_map.1 he
      exact ⟨rfl, rfl⟩
  have hsame : ∀ e ∈ s2.evals, ∀ e' ∈ s2.evals, e.optimiser = e'.optimiser → e.params = e'.params ∧ e.mesh = e'.mesh := by
    intro e he e' he' hg
    by_cases hg1 : e.optimiser = s1.optimisers
    · have a1 := hcur e he hg1
      have a2 := hcur e' he' (hg ▸ hg1)
      exact ⟨a1.1.trans a2.1.symm, a1.2.trans a2.2.symm⟩
    · rw [f6] at he he'
      rcases List.mem_append.1 he with he | he
      · rcases List.mem_append.1 he' with he' | he'
        · exact hs.same e he e' he' hg
        · obtain ⟨i, hi', rfl⟩ := List.mem_map.1 he'
          exact absurd hg hg1
      · obtain ⟨i, hi', rfl⟩ := List.mem_map.1 he
        exact absurd rfl hg1
  -- the restart check
  have g : ∃ b, restartCheck c s2 = { s2 with needNew := b } ∧
      (b = false → s2.iter < c.maxIter → paramsAt c.conts s2.iter = paramsAt c.conts s.iter) := by
    unfold restartCheck
    split_ifs with hc
    · exact ⟨true, rfl, fun h => by cases h⟩
    · refine ⟨false, ?_, ?_⟩
      · rw [← f5]
      · intro _ hlt
        have hany : ¬ (c.conts.any fun kc => decide (kc.2.valueAt s2.iter ≠ kc.2.valueAt ((s2.iter : ℤ) - 1))) = true :=
          fun ha => hc ⟨hlt, ha⟩
        rw [← hconst (s2.iter - 1) (by omega) (by omega)]
        unfold paramsAt
        apply List.map_congr_left
        intro kc hk
        have h1 : (s2.iter : ℤ) - 1 = ((s2.iter - 1 : ℕ) : ℤ) := by omega
        rw [h1] at hany
        rw [List.any_eq_true] at hany
        push Not at hany
        have := hany kc hk
        simp only [ne_eq, decide_not, Bool.not_eq_true', decide_eq_false_iff_not, not_not] at this
        rw [this]
  obtain ⟨b, hb, hbp⟩ := g
  have hpass : optPass c s = remeshCheck c { s2 with needNew := b } := by
    rw [← hb]
    rfl
  rw [hpass]
  unfold remeshCheck
  cases hc : c.adaptive with
  | none =>
    simp only
    have ha0 : s.adapts = 0 := by rw [hadapt, hc]; rfl
    refine ⟨⟨?_, ?_, ?_, hnum, hpar, hmes, ?_, hgen, hsame, ?_⟩, by rw [f1]; omega⟩
    · rw [f1]; omega
    · intro _; rw [hc]; exact ha0
    · intro _; rw [hc]; exact ha0
    · rw [f3, f2]; exact hs.remeshes
    · intro hbf hlt e he hg
      rw [hbp hbf hlt]
      exact hcur e he hg
  | some a =>
    simp only
    have hae := h.adapt a hc
    have hbound := b4 a hc
    have had : s.adapts = min a.nAdaptsMax (s.iter / a.adaptEvery) := by rw [hadapt, hc]; rfl
    have hmesh' : ∀ j, s.iter ≤ j → j < nextStop c s1 → min a.nAdaptsMax (j / a.adaptEvery) = s.adapts := by
      intro j h1 h2
      have := hmesh j h1 h2
      rwa [hc] at this
    split_ifs with hr
    · obtain ⟨r1, r2, r3⟩ := hr
      have r1' : s.adapts < a.nAdaptsMax := r1
      have r2' : s2.iter < c.maxIter := r2
      have r3' : s2.iter % a.adaptEvery = 0 := r3
      have hstop := hbound r1'
      rw [e1] at hstop
      -- the count lands on the next multiple
      have hdiv : s2.iter / a.adaptEvery = s.iter / a.adaptEvery + 1 := by
        have h1 : s2.iter ≤ (s.iter / a.adaptEvery + 1) * a.adaptEvery := by rw [f1]; omega
        have h2 : a.adaptEvery * (s2.iter / a.adaptEvery) = s2.iter := Nat.mul_div_cancel' (Nat.dvd_of_mod_eq_zero r3')
        have h3 : s2.iter / a.adaptEvery ≤ s.iter / a.adaptEvery + 1 := by
          rw [← h2, mul_comm a.adaptEvery] at h1
          exact Nat.le_of_mul_le_mul_right h1 hae
        have h4 : s.iter / a.adaptEvery < s2.iter / a.adaptEvery := by
          rw [Nat.div_lt_iff_lt_mul hae, mul_comm, h2, f1]
          omega
        omega
      have hsa : s.adapts = s.iter / a.adaptEvery := by omega
      refine ⟨⟨r2'.le, ?_, ?_, hnum, hpar, hmes, ?_, hgen, hsame, ?_⟩, by rw [f1]; omega⟩
      · intro _
        change s.adapts + 1 = _
        rw [hc]
        change s.adapts + 1 = min a.nAdaptsMax (s2.iter / a.adaptEvery)
        omega
      · intro he
        exact absurd he (by change s2.iter ≠ _; omega)
      · change s2.remeshes ++ [s2.iter] = (List.range (s.adapts + 1)).map _
        rw [f3, hs.remeshes, List.range_succ, List.map_append, List.map_singleton]
        congr 2
        have h2 : a.adaptEvery * (s2.iter / a.adaptEvery) = s2.iter := Nat.mul_div_cancel' (Nat.dvd_of_mod_eq_zero r3')
        rw [hc]
        simp only [Option.map_some, Option.getD_some]
        rw [hsa, ← hdiv, mul_comm, h2]
      · intro hn
        cases hn
    · refine ⟨⟨?_, ?_, ?_, hnum, hpar, hmes, ?_, hgen, hsame, ?_⟩, by rw [f1]; omega⟩
      · rw [f1]; omega
      · intro hlt
        change s.adapts = adaptsAt c.adaptive s2.iter
        rw [hc]
        change s.adapts = min a.nAdaptsMax (s2.iter / a.adaptEvery)
        rcases Nat.lt_or_ge s2.iter (nextStop c s1) with hlt' | hge
        · exact (hmesh' s2.iter (by omega) hlt').symm
        · by_cases hl : s.adapts < a.nAdaptsMax
          · have hnm : s2.iter % a.adaptEvery ≠ 0 := fun h0 => hr ⟨hl, hlt, h0⟩
            have hstop := hbound hl
            rw [e1] at hstop
            have h1 : s2.iter < (s.iter / a.adaptEvery + 1) * a.adaptEvery := by
              rcases Nat.lt_or_ge s2.iter ((s.iter / a.adaptEvery + 1) * a.adaptEvery) with h | h
              · exact h
              · exfalso
                apply hnm
                have : s2.iter = (s.iter / a.adaptEvery + 1) * a.adaptEvery := by omega
                rw [this]
                exact Nat.mul_mod_left _ _
            have h2 : s2.iter / a.adaptEvery < s.iter / a.adaptEvery + 1 := (Nat.div_lt_iff_lt_mul hae).2 h1
            have h3 := Nat.div_le_div_right (c := a.adaptEvery) (show s.iter ≤ s2.iter by omega)
            omega
          · have h3 := Nat.div_le_div_right (c := a.adaptEvery) (show s.iter ≤ s2.iter by omega)
            omega
      · intro he
        change s.adapts = adaptsAt c.adaptive (s2.iter - 1)
        rw [hc]
        exact (hmesh' (s2.iter - 1) (by omega) (by omega)).symm
      · change s2.remeshes = (List.range s2.adapts).map _
        rw [f3, f2]
        exact hs.remeshes
      · intro hbf hlt e he hg
        have := hcur e he hg
        change e.params = paramsAt c.conts s2.iter ∧ _
        rw [hbp hbf hlt]
        exact this

theorem loop_inv (c : OptSetup F X M) (h : ValidSetup c) : ∀ (fuel : ℕ) (s : OptState F X M), LoopInv c s →
    c.maxIter - s.iter ≤ fuel → LoopInv c (optLoop c fuel s) ∧ (optLoop c fuel s).iter = c.maxIter := by
  intro fuel
  induction fuel with
  | zero =>
    intro s hs hf
    have := hs.iter_le
    exact ⟨hs, by change s.iter = _; omega⟩
  | succ fuel ih =>
    intro s hs hf
    unfold optLoop
    split_ifs with hi
    · obtain ⟨h1, h2⟩ := pass_inv c h s hs hi
      exact ih _ h1 (by omega)
    · have := hs.iter_le
      exact ⟨hs, by omega⟩

theorem run_inv (c : OptSetup F X M) (h : ValidSetup c) (x : X) (mesh : M) :
    LoopInv c (optRun c x mesh) ∧ (optRun c x mesh).iter = c.maxIter := by
  unfold optRun
  refine loop_inv c h _ _ ?_ (by simp)
  refine ⟨Nat.zero_le _, ?_, ?_, rfl, by simp, by simp, rfl, by simp, by simp, by simp⟩
  · intro _
    change 0 = adaptsAt c.adaptive 0
    unfold adaptsAt
    cases c.adaptive <;> simp
  · intro _
    change 0 = adaptsAt c.adaptive (0 - 1)
    unfold adaptsAt
    cases c.adaptive <;> simp

/-- **C50.** Whatever the inner optimiser does, `run` makes exactly `max_iter` evaluations, numbered `1, 2, …`. -/
theorem C50_evaluations (c : OptSetup F X M) (h : ValidSetup c) (x : X) (mesh : M) :
    (optRun c x mesh).evals.map (·.number) = List.range' 1 c.maxIter := by
  have := run_inv c h x mesh
  rw [this.1.numbers, this.2]

/-- **C50.** The `k`-th evaluation sees each continuation parameter at `value_at(k-1)`. -/
theorem C50_parameters (c : OptSetup F X M) (h : ValidSetup c) (x : X) (mesh : M) :
    ∀ e ∈ (optRun c x mesh).evals, 1 ≤ e.number ∧
      e.params = c.conts.map fun kc => (kc.1, kc.2.valueAt ((e.number : ℤ) - 1)) := by
  intro e he
  have hI := run_inv c h x mesh
  have hn : e.number ∈ List.range' 1 c.maxIter := by
    rw [← C50_evaluations c h x mesh]
    exact List.mem_map_of_mem he
  have h1 : 1 ≤ e.number := (List.mem_range'_1.1 hn).1
  refine ⟨h1, ?_⟩
  rw [hI.1.params e he]
  unfold paramsAt
  have : ((e.number - 1 : ℕ) : ℤ) = (e.number : ℤ) - 1 := by omega
  rw [this]

/-- **C50.** The remeshes take place exactly at the first `n_adapts_max` multiples of `adapt_every` below `max_iter` — in terms of the
list of all such multiples, in increasing order. -/
theorem C50_remeshes (c : OptSetup F X M) (h : ValidSetup c) (x : X) (mesh : M) (a : Adaptive) (ha : c.adaptive = some a) :
    (optRun c x mesh).remeshes =
      ((List.range c.maxIter).filter fun i => decide (0 < i ∧ a.adaptEvery ∣ i)).take a.nAdaptsMax := by
  have hI := run_inv c h x mesh
  have hae := h.adapt a ha
  have hm : ∀ n, ((List.range n).filter fun i => decide (0 < i ∧ a.adaptEvery ∣ i))
      = (List.range ((n - 1) / a.adaptEvery)).map fun i => (i + 1) * a.adaptEvery := by
    intro n
    induction n with
    | zero => simp
    | succ n ih =>
      rw [List.range_succ, List.filter_append, ih]
      rcases n with _ | n
      · simp
      · rw [Nat.add_sub_cancel, Nat.add_sub_cancel]
        by_cases hd : a.adaptEvery ∣ n + 1
        · have h1 : (n + 1) / a.adaptEvery = n / a.adaptEvery + 1 := Nat.succ_div_of_dvd hd
          rw [h1, List.range_succ, List.map_append, List.map_singleton, List.filter_singleton]
          have h2 : (n / a.adaptEvery + 1) * a.adaptEvery = n + 1 := by
            rw [← h1]
            exact Nat.div_mul_cancel hd
          simp [hd, h2]
        · have h1 : (n + 1) / a.adaptEvery = n / a.adaptEvery := Nat.succ_div_of_not_dvd hd
          rw [h1, List.filter_singleton]
          simp [hd]
  rw [hI.1.remeshes, hm, ha]
  simp only [Option.map_some, Option.getD_some]
  rw [← List.map_take, List.take_range]
  congr 2
  have := hI.1.adapts_end hI.2
  rw [this, hI.2, ha]
  rfl

/-- **C50.** Without an adaptive configuration there is no remesh. -/
theorem C50_no_remesh (c : OptSetup F X M) (h : ValidSetup c) (x : X) (mesh : M) (ha : c.adaptive = none) :
    (optRun c x mesh).remeshes = [] := by
  have hI := run_inv c h x mesh
  rw [hI.1.remeshes, hI.1.adapts_end hI.2, ha]
  rfl

/-- **C50.** An optimiser object is never used across a parameter change or a remesh: all evaluations it makes see the same
parameters and the same mesh; and the mesh of evaluation `k` is the one after all remeshes up to iteration `k - 1`. -/
theorem C50_optimiser_not_reused (c : OptSetup F X M) (h : ValidSetup c) (x : X) (mesh : M) :
    (∀ e ∈ (optRun c x mesh).evals, ∀ e' ∈ (optRun c x mesh).evals, e.optimiser = e'.optimiser →
      e.params = e'.params ∧ e.mesh = e'.mesh) ∧
    ∀ e ∈ (optRun c x mesh).evals, e.mesh = ((optRun c x mesh).remeshes.filter fun i => decide (i < e.number)).length := by
  have hI := run_inv c h x mesh
  refine ⟨hI.1.same, ?_⟩
  intro e he
  have hn : e.number ∈ List.range' 1 c.maxIter := by
    rw [← C50_evaluations c h x mesh]
    exact List.mem_map_of_mem he
  have h1 := List.mem_range'_1.1 hn
  rw [hI.1.meshes e he, hI.1.remeshes, hI.1.adapts_end hI.2, hI.2]
  unfold adaptsAt
  cases ha : c.adaptive with
  | none => rfl
  | some a =>
    simp only [Option.map_some, Option.getD_some]
    have hae := h.adapt a ha
    rw [List.filter_map, List.length_map]
    have hcnt : ∀ n k : ℕ, ((List.range n).filter ((fun i => decide (i < e.number)) ∘ fun i => (i + 1) * a.adaptEvery)).length
        = min n ((e.number - 1) / a.adaptEvery) := by
      intro n _
      induction n with
      | zero => simp
      | succ n ih =>
        rw [List.range_succ, List.filter_append, List.length_append, ih, List.filter_singleton]
        simp only [Function.comp]
        by_cases hlt : (n + 1) * a.adaptEvery < e.number
        · have : n + 1 ≤ (e.number - 1) / a.adaptEvery := (Nat.le_div_iff_mul_le hae).2 (by omega)
          simp [hlt]
          omega
        · have : ¬ n + 1 ≤ (e.number - 1) / a.adaptEvery := by
            rw [Nat.le_div_iff_mul_le hae]
            omega
          simp [hlt]
          omega
    rw [hcnt _ 0]
    have := Nat.div_le_div_right (c := a.adaptEvery) (show e.number - 1 ≤ c.maxIter - 1 by omega)
    omega

end

/-- A run of 20 iterations: a penalty raised every 4 iterations, remeshing every 6 (twice at most), an inner optimiser that gives up
after 3 evaluations. -/
def exRun : OptSetup ℚ ℕ ℕ where
  maxIter := 20
  conts := [("p", ⟨1, 3, 4, 1⟩)]
  adaptive := some ⟨6, 2⟩
  inner := fun s b => (min b 3, s.x + 1)
  remesh := fun m _ => m + 1
  transfer := fun x _ _ => x

/-- The setup is valid, and the schedule is as claimed. -/
example : ValidSetup exRun := by
  refine ⟨?_, ?_, ?_⟩
  · intro kc hk
    rw [List.mem_singleton.1 hk]
    decide
  · intro a ha
    cases ha
    decide
  · intro s b hb
    exact ⟨Nat.le_min.2 ⟨hb, by decide⟩, Nat.min_le_left _ _⟩

example : (optRun exRun 0 0).remeshes = [6, 12] ∧
    (optRun exRun 0 0).evals.map (fun e => (e.number, (e.params.map (·.2)).headD 0, e.optimiser, e.mesh)) =
      [(1, 1, 1, 0), (2, 1, 1, 0), (3, 1, 1, 0), (4, 1, 1, 0), (5, 2, 2, 0), (6, 2, 2, 0), (7, 2, 3, 1), (8, 2, 3, 1),
       (9, 3, 4, 1), (10, 3, 4, 1), (11, 3, 4, 1), (12, 3, 4, 1), (13, 3, 5, 2), (14, 3, 5, 2), (15, 3, 5, 2), (16, 3, 5, 2),
       (17, 3, 5, 2), (18, 3, 5, 2), (19, 3, 5, 2), (20, 3, 5, 2)] := by
  decide +kernel


/-- C50: the design always belongs to the current mesh. If the inner optimiser keeps the design fitted to the mesh it works on, and
transferring a fitted design from a mesh to its remesh fits it to the new one, then the run ends with a design fitted to its last
mesh. `Fits` may be any relation, say that there is one value per node. -/
theorem C50_design_fits_mesh {F X M : Type*} [Ring F] [LinearOrder F] (c : OptSetup F X M) (Fits : X → M → Prop) (x : X) (mesh : M)
    (h0 : Fits x mesh) (hin : ∀ s b, Fits s.x s.mesh → Fits (c.inner s b).2 s.mesh)
    (htr : ∀ x m, Fits x m → Fits (c.transfer x m (c.remesh m x)) (c.remesh m x)) :
    Fits (optRun c x mesh).x (optRun c x mesh).mesh := by
  have pass : ∀ s : OptState F X M, Fits s.x s.mesh → Fits (optPass c s).x (optPass c s).mesh := by
    intro s hs
    have h1 : Fits (optimise c (beginPass c s)).x (optimise c (beginPass c s)).mesh := hin _ _ hs
    have h2 : Fits (restartCheck c (optimise c (beginPass c s))).x (restartCheck c (optimise c (beginPass c s))).mesh := by
      unfold restartCheck
      split_ifs
      · exact h1
      · exact h1
    unfold optPass remeshCheck
    split
    · exact h2
    · split_ifs
      · exact htr _ _ h2
      · exact h2
  have loop : ∀ fuel (s : OptState F X M), Fits s.x s.mesh → Fits (optLoop c fuel s).x (optLoop c fuel s).mesh := by
    intro fuel
    induction fuel with
    | zero => intro s hs; exact hs
    | succ fuel ih =>
      intro s hs
      unfold optLoop
      split_ifs
      · exact ih _ (pass s hs)
      · exact hs
  exact loop _ _ h0

/-- Designs with one value per node, meshes given by their number of nodes, a transfer that refuses to read beyond the old mesh. -/
example : let c : OptSetup ℚ (List ℚ) ℕ :=
      { maxIter := 20, conts := [], adaptive := some ⟨6, 2⟩, inner := fun s b => (b, s.x.map (· + 1)), remesh := fun m _ => 2 * m + 1,
        transfer := fun x m m' => if x.length = m then List.replicate m' 1 else [] }
    (optRun c [0, 0, 0] 3).x.length = (optRun c [0, 0, 0] 3).mesh := by
  intro c
  exact C50_design_fits_mesh c (fun (x : List ℚ) m => x.length = m) _ _ rfl (fun s b h => by simpa [c] using h) (fun x m h => by simp [c, h])
end Verif.Props
