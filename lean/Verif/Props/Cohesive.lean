import Verif.Model.Cohesive
import Mathlib.Analysis.Calculus.Deriv.MeanValue
import Mathlib.Analysis.SpecialFunctions.ExpDeriv
import Mathlib.Analysis.Complex.ExponentialBounds
import Mathlib.Tactic.Ring
import Mathlib.Tactic.FieldSimp
import Mathlib.Tactic.Linarith
import Mathlib.Tactic.Positivity
import Mathlib.Tactic.GCongr
import Mathlib.Tactic.NormNum

/-!
# Cohesive laws: C87
-/

namespace Verif.Props
open Verif.Model

/-! ## The exponential law -/

/-- The normalised loading curve. -/
noncomputable def expCurve (x : ℝ) : ℝ := 1 - (1 + x) * Real.exp (-x)

theorem expCurve_zero : expCurve 0 = 0 := by simp [expCurve]

theorem expCurve_nonneg {x : ℝ} (hx : 0 ≤ x) : 0 ≤ expCurve x := by
  have h : (1 + x) * Real.exp (-x) ≤ Real.exp x * Real.exp (-x) := by
    apply mul_le_mul_of_nonneg_right _ (Real.exp_pos _).le
    linarith [Real.add_one_le_exp x]
  rw [← Real.exp_add, add_neg_cancel, Real.exp_zero] at h
  simp only [expCurve]; linarith

theorem expCurve_lt_one {x : ℝ} (hx : 0 ≤ x) : expCurve x < 1 := by
  have : 0 < (1 + x) * Real.exp (-x) := by positivity
  simp only [expCurve]; linarith

theorem expCurve_deriv (x : ℝ) : HasDerivAt expCurve (x * Real.exp (-x)) x := by
  have h1 : HasDerivAt (fun y : ℝ => Real.exp (-y)) (-Real.exp (-x)) x := by
    simpa using (hasDerivAt_neg x).exp
  have h2 : HasDerivAt (fun y : ℝ => 1 + y) 1 x := by simpa using (hasDerivAt_id x).const_add (1 : ℝ)
  have h3 := (h2.mul h1).const_sub 1
  refine HasDerivAt.congr_deriv (f := expCurve) ?_ (?_ : -(1 * Real.exp (-x) + (1 + x) * -Real.exp (-x)) = _)
  · exact h3
  · ring

theorem expCurve_mono : MonotoneOn expCurve (Set.Ici 0) := by
  apply monotoneOn_of_deriv_nonneg (convex_Ici 0)
  · exact fun x _ => (expCurve_deriv x).continuousAt.continuousWithinAt
  · exact fun x _ => (expCurve_deriv x).differentiableAt.differentiableWithinAt
  · intro x hx
    rw [interior_Ici] at hx
    rw [(expCurve_deriv x).deriv]
    have : (0 : ℝ) < x := hx
    positivity

theorem mul_exp_neg_le (x : ℝ) : x * Real.exp (-x) ≤ Real.exp (-1) := by
  have h : x * Real.exp (-x) ≤ Real.exp (x - 1) * Real.exp (-x) := by
    apply mul_le_mul_of_nonneg_right _ (Real.exp_pos _).le
    linarith [Real.add_one_le_exp (x - 1)]
  rw [← Real.exp_add] at h
  rwa [show x - 1 + -x = -1 by ring] at h

/-- The ratio to the square decreases: the secant stiffness falls as the interface is damaged. -/
theorem expCurve_ratio {x y : ℝ} (hx : 0 < x) (hxy : x ≤ y) : expCurve y / y ^ 2 ≤ expCurve x / x ^ 2 := by
  have hd : ∀ z ∈ Set.Ioi (0 : ℝ), HasDerivAt (fun z => expCurve z / z ^ 2)
      ((z * Real.exp (-z) * z ^ 2 - expCurve z * (2 * z)) / (z ^ 2) ^ 2) z := by
    intro z hz
    have hz' : (z : ℝ) ^ 2 ≠ 0 := pow_ne_zero _ (ne_of_gt hz)
    have h2 : HasDerivAt (fun y : ℝ => y ^ 2) (2 * z) z := by simpa using hasDerivAt_pow 2 z
    exact (expCurve_deriv z).div h2 hz'
  have hanti : AntitoneOn (fun z => expCurve z / z ^ 2) (Set.Ioi 0) := by
    apply antitoneOn_of_deriv_nonpos (convex_Ioi 0)
    · exact fun z hz => (hd z hz).continuousAt.continuousWithinAt
    · intro z hz
      rw [interior_Ioi] at hz
      exact (hd z hz).differentiableAt.differentiableWithinAt
    · intro z hz
      rw [interior_Ioi] at hz
      rw [(hd z hz).deriv]
      have hz0 : (0 : ℝ) < z := hz
      apply div_nonpos_of_nonpos_of_nonneg _ (by positivity)
      have hq := Real.quadratic_le_exp_of_nonneg hz0.le
      have he : (1 + z + z ^ 2 / 2) * Real.exp (-z) ≤ 1 := by
        have h := mul_le_mul_of_nonneg_right hq (Real.exp_pos (-z)).le
        rwa [← Real.exp_add, add_neg_cancel, Real.exp_zero] at h
      have : z * Real.exp (-z) * z ^ 2 - expCurve z * (2 * z)
          = 2 * z * ((1 + z + z ^ 2 / 2) * Real.exp (-z) - 1) := by simp only [expCurve]; ring
      rw [this]
      exact mul_nonpos_of_nonneg_of_nonpos (by positivity) (by linarith)
  exact hanti hx (lt_of_lt_of_le hx hxy) hxy

/-- The length scale `δc = Γ / (e σc)` of the exponential law. -/
noncomputable def critOpening (gamma sigmaC : ℝ) : ℝ := gamma / (Real.exp 1 * sigmaC)

theorem critOpening_pos {gamma sigmaC : ℝ} (hg : 0 < gamma) (hs : 0 < sigmaC) : 0 < critOpening gamma sigmaC := by
  unfold critOpening; positivity

theorem exponentialLoad_eq (gamma sigmaC delta : ℝ) :
    exponentialLoad gamma sigmaC delta = gamma * expCurve (delta / critOpening gamma sigmaC) := by
  simp [exponentialLoad, expCurve, critOpening, neg_div]

/-- The traction of the exponential law at opening `d`. -/
noncomputable def expTraction (gamma sigmaC d : ℝ) : ℝ :=
  sigmaC * (d / critOpening gamma sigmaC) * Real.exp (1 - d / critOpening gamma sigmaC)

theorem exponentialLoad_deriv {gamma sigmaC : ℝ} (hg : 0 < gamma) (hs : 0 < sigmaC) (d : ℝ) :
    HasDerivAt (exponentialLoad gamma sigmaC) (expTraction gamma sigmaC d) d := by
  have hc := critOpening_pos hg hs
  have h1 : HasDerivAt (fun y : ℝ => y / critOpening gamma sigmaC) (1 / critOpening gamma sigmaC) d := by
    simpa using (hasDerivAt_id d).div_const (critOpening gamma sigmaC)
  have h2 := ((expCurve_deriv (d / critOpening gamma sigmaC)).comp d h1).const_mul gamma
  have hf : exponentialLoad gamma sigmaC = fun y => gamma * (expCurve ∘ fun y => y / critOpening gamma sigmaC) y := by
    funext y; exact exponentialLoad_eq _ _ _
  rw [hf]
  refine h2.congr_deriv ?_
  have hgc : gamma / critOpening gamma sigmaC = Real.exp 1 * sigmaC := by
    unfold critOpening; field_simp
  have : gamma * (d / critOpening gamma sigmaC * Real.exp (-(d / critOpening gamma sigmaC)) * (1 / critOpening gamma sigmaC))
      = (gamma / critOpening gamma sigmaC) * (d / critOpening gamma sigmaC) * Real.exp (-(d / critOpening gamma sigmaC)) := by ring
  rw [this, hgc, expTraction, sub_eq_add_neg, Real.exp_add]; ring

theorem exponentialLoad_nonneg {gamma sigmaC d : ℝ} (hg : 0 < gamma) (hs : 0 < sigmaC) (hd : 0 ≤ d) :
    0 ≤ exponentialLoad gamma sigmaC d := by
  rw [exponentialLoad_eq]
  exact mul_nonneg hg.le (expCurve_nonneg (div_nonneg hd (critOpening_pos hg hs).le))

theorem exponentialLoad_lt {gamma sigmaC d : ℝ} (hg : 0 < gamma) (hs : 0 < sigmaC) (hd : 0 ≤ d) :
    exponentialLoad gamma sigmaC d < gamma := by
  rw [exponentialLoad_eq]
  have := expCurve_lt_one (div_nonneg hd (critOpening_pos hg hs).le)
  nlinarith

theorem exponentialLoad_mono {gamma sigmaC : ℝ} (hg : 0 < gamma) (hs : 0 < sigmaC) {a b : ℝ} (ha : 0 ≤ a) (hab : a ≤ b) :
    exponentialLoad gamma sigmaC a ≤ exponentialLoad gamma sigmaC b := by
  have hc := critOpening_pos hg hs
  rw [exponentialLoad_eq, exponentialLoad_eq]
  apply mul_le_mul_of_nonneg_left _ hg.le
  exact expCurve_mono (div_nonneg ha hc.le) (div_nonneg (ha.trans hab) hc.le) (by gcongr)

theorem exponentialLoad_ratio {gamma sigmaC : ℝ} (hg : 0 < gamma) (hs : 0 < sigmaC) {a b : ℝ} (ha : 0 < a) (hab : a ≤ b) :
    exponentialLoad gamma sigmaC b * a ^ 2 ≤ exponentialLoad gamma sigmaC a * b ^ 2 := by
  have hc := critOpening_pos hg hs
  have hb : 0 < b := lt_of_lt_of_le ha hab
  have h := expCurve_ratio (div_pos ha hc) (show a / critOpening gamma sigmaC ≤ b / critOpening gamma sigmaC by gcongr)
  rw [div_le_div_iff₀ (by positivity) (by positivity)] at h
  rw [exponentialLoad_eq, exponentialLoad_eq]
  have h2 : expCurve (b / critOpening gamma sigmaC) * a ^ 2 ≤ expCurve (a / critOpening gamma sigmaC) * b ^ 2 := by
    have e1 : ∀ z : ℝ, (z / critOpening gamma sigmaC) ^ 2 = z ^ 2 / critOpening gamma sigmaC ^ 2 := fun z => div_pow _ _ _
    rw [e1, e1, ← mul_div_assoc, ← mul_div_assoc] at h
    exact (div_le_div_iff_of_pos_right (by positivity)).mp h
  calc _ = gamma * (expCurve (b / critOpening gamma sigmaC) * a ^ 2) := by ring
    _ ≤ gamma * (expCurve (a / critOpening gamma sigmaC) * b ^ 2) := mul_le_mul_of_nonneg_left h2 hg.le
    _ = _ := by ring

/-! ## Specification -/

/-- `t` is the traction of the law `phi` at opening `d` with history `dmax`: the derivative of the energy. -/
def IsTraction (phi : ℝ → ℝ → ℝ) (dmax d t : ℝ) : Prop := HasDerivAt (fun x => phi x dmax) t d

theorem law_loading {K : Type*} [Field K] [LinearOrder K] (load : K → K) {d dmax : K} (h : dmax - 1 / 10 ^ 15 ≤ d) :
    cohesiveLaw load d dmax = load d := by simp only [cohesiveLaw]; rw [if_pos h]

theorem law_unloading {K : Type*} [Field K] [LinearOrder K] [IsStrictOrderedRing K] (load : K → K) {d dmax : K}
    (hd : 0 ≤ d) (h : d < dmax - 1 / 10 ^ 15) :
    cohesiveLaw load d dmax = load dmax / (dmax ^ 2 + 1 / 10 ^ 30) * d ^ 2 := by
  simp only [cohesiveLaw]
  have h0 : (0 : K) < 1 / 10 ^ 15 := by positivity
  rw [if_neg (not_le.mpr h), if_pos (by linarith)]

/-- Under monotone opening the law has the traction `σc (δ/δc) exp(1 - δ/δc)`; it never exceeds `sigma_c`, and equals
`sigma_c` at the critical opening. -/
theorem C87_exponential_peak_traction {gamma sigmaC : ℝ} (hg : 0 < gamma) (hs : 0 < sigmaC) {dmax d : ℝ} (hd : 0 ≤ d)
    (hload : dmax - 1 / 10 ^ 15 < d) :
    IsTraction (exponentialPotential gamma sigmaC) dmax d (expTraction gamma sigmaC d)
      ∧ 0 ≤ expTraction gamma sigmaC d ∧ expTraction gamma sigmaC d ≤ sigmaC
      ∧ expTraction gamma sigmaC (critOpening gamma sigmaC) = sigmaC := by
  have hc := critOpening_pos hg hs
  refine ⟨?_, ?_, ?_, ?_⟩
  · refine HasDerivAt.congr_of_eventuallyEq (exponentialLoad_deriv hg hs d) ?_
    filter_upwards [lt_mem_nhds hload] with x hx
    exact law_loading _ hx.le
  · unfold expTraction; positivity
  · have h := mul_exp_neg_le (d / critOpening gamma sigmaC)
    have h2 : d / critOpening gamma sigmaC * Real.exp (1 - d / critOpening gamma sigmaC) ≤ 1 := by
      rw [sub_eq_add_neg, Real.exp_add]
      calc _ = Real.exp 1 * (d / critOpening gamma sigmaC * Real.exp (-(d / critOpening gamma sigmaC))) := by ring
        _ ≤ Real.exp 1 * Real.exp (-1) := mul_le_mul_of_nonneg_left h (Real.exp_pos _).le
        _ = 1 := by rw [← Real.exp_add]; simp
    unfold expTraction
    calc _ = sigmaC * (d / critOpening gamma sigmaC * Real.exp (1 - d / critOpening gamma sigmaC)) := by ring
      _ ≤ sigmaC * 1 := mul_le_mul_of_nonneg_left h2 hs.le
      _ = sigmaC := mul_one _
  · unfold expTraction; rw [div_self hc.ne']; simp

/-- Whatever the history, the stored energy lies in `[0, Γ)`, vanishes at zero opening, and grows with the opening. -/
theorem C87_exponential_energy {gamma sigmaC : ℝ} (hg : 0 < gamma) (hs : 0 < sigmaC) (dmax : ℝ) :
    (∀ d, 0 ≤ d → 0 ≤ exponentialPotential gamma sigmaC d dmax ∧ exponentialPotential gamma sigmaC d dmax < gamma)
      ∧ exponentialPotential gamma sigmaC 0 dmax = 0
      ∧ ∀ a b, 0 ≤ a → a ≤ b → exponentialPotential gamma sigmaC a dmax ≤ exponentialPotential gamma sigmaC b dmax := by
  have h0 : (0 : ℝ) < 1 / 10 ^ 15 := by positivity
  have hun : ∀ d, 0 ≤ d → d < dmax - 1 / 10 ^ 15 →
      0 ≤ exponentialPotential gamma sigmaC d dmax ∧ exponentialPotential gamma sigmaC d dmax ≤ exponentialLoad gamma sigmaC d := by
    intro d hd h
    have hm : 0 < dmax := by linarith
    have hl := exponentialLoad_nonneg hg hs hm.le
    rw [exponentialPotential, law_unloading _ hd h]
    refine ⟨by positivity, ?_⟩
    rcases eq_or_lt_of_le hd with h' | h'
    · rw [← h']; simp [exponentialLoad_eq, expCurve_zero]
    · have hr := exponentialLoad_ratio hg hs h' (show d ≤ dmax by linarith)
      rw [div_mul_eq_mul_div, div_le_iff₀ (by positivity)]
      have := exponentialLoad_nonneg hg hs hd
      nlinarith [mul_nonneg this (show (0 : ℝ) ≤ 1 / 10 ^ 30 by positivity)]
  refine ⟨fun d hd => ?_, ?_, fun a b ha hab => ?_⟩
  · by_cases h : dmax - 1 / 10 ^ 15 ≤ d
    · rw [exponentialPotential, law_loading _ h]
      exact ⟨exponentialLoad_nonneg hg hs hd, exponentialLoad_lt hg hs hd⟩
    · have := hun d hd (not_le.mp h)
      exact ⟨this.1, lt_of_le_of_lt this.2 (exponentialLoad_lt hg hs hd)⟩
  · by_cases h : dmax - 1 / 10 ^ 15 ≤ 0
    · rw [exponentialPotential, law_loading _ h]; simp [exponentialLoad_eq, expCurve_zero]
    · rw [exponentialPotential, law_unloading _ le_rfl (not_le.mp h)]; simp
  · by_cases h : dmax - 1 / 10 ^ 15 ≤ a
    · rw [exponentialPotential, exponentialPotential, law_loading _ h, law_loading _ (h.trans hab)]
      exact exponentialLoad_mono hg hs ha hab
    · have ha' := not_le.mp h
      have hm : 0 < dmax := by linarith
      by_cases hb : dmax - 1 / 10 ^ 15 ≤ b
      · refine (hun a ha ha').2.trans ?_
        rw [exponentialPotential, law_loading _ hb]
        exact exponentialLoad_mono hg hs ha hab
      · rw [exponentialPotential, exponentialPotential, law_unloading _ ha ha', law_unloading _ (ha.trans hab) (not_le.mp hb)]
        have hl := exponentialLoad_nonneg hg hs hm.le
        gcongr

/-- Complete separation stores the fracture energy `Γ`. -/
theorem C87_exponential_fracture_energy {gamma sigmaC : ℝ} (hg : 0 < gamma) (hs : 0 < sigmaC) (dmax : ℝ) :
    Filter.Tendsto (fun d => exponentialPotential gamma sigmaC d dmax) Filter.atTop (nhds gamma) := by
  have hc := critOpening_pos hg hs
  have h1 : Filter.Tendsto (fun x : ℝ => (1 + x) * Real.exp (-x)) Filter.atTop (nhds 0) := by
    have ha := Real.tendsto_pow_mul_exp_neg_atTop_nhds_zero 0
    have hb := Real.tendsto_pow_mul_exp_neg_atTop_nhds_zero 1
    have := ha.add hb
    simp only [add_zero] at this
    refine this.congr (fun x => ?_)
    ring
  have h2 : Filter.Tendsto expCurve Filter.atTop (nhds 1) := by
    have := h1.const_sub 1
    rw [sub_zero] at this
    exact this
  have h3 : Filter.Tendsto (fun d : ℝ => gamma * expCurve (d / critOpening gamma sigmaC)) Filter.atTop (nhds (gamma * 1)) :=
    (h2.comp (Filter.tendsto_id.atTop_div_const hc)).const_mul gamma
  rw [mul_one] at h3
  refine h3.congr' ?_
  filter_upwards [Filter.eventually_ge_atTop (dmax - 1 / 10 ^ 15)] with d hd
  rw [exponentialPotential, law_loading _ hd, exponentialLoad_eq]

/-- Damage does not heal: at a given opening, a history that has opened further stores no more energy, up to the
regularisation `1e-30 / δ_max²`. -/
theorem C87_exponential_irreversible {gamma sigmaC : ℝ} (hg : 0 < gamma) (hs : 0 < sigmaC) {d d1 d2 : ℝ} (hd : 0 ≤ d)
    (h1 : 0 < d1) (h12 : d1 ≤ d2) :
    exponentialPotential gamma sigmaC d d2 ≤ exponentialPotential gamma sigmaC d d1 * (1 + 1 / 10 ^ 30 / d1 ^ 2) := by
  have h0 : (0 : ℝ) < 1 / 10 ^ 15 := by positivity
  have hpos := (C87_exponential_energy hg hs d1).1 d hd
  have hfac : exponentialPotential gamma sigmaC d d1
      ≤ exponentialPotential gamma sigmaC d d1 * (1 + 1 / 10 ^ 30 / d1 ^ 2) := by
    have : (0 : ℝ) ≤ 1 / 10 ^ 30 / d1 ^ 2 := by positivity
    nlinarith [hpos.1]
  by_cases hl2 : d2 - 1 / 10 ^ 15 ≤ d
  · have hl1 : d1 - 1 / 10 ^ 15 ≤ d := by linarith
    refine le_trans ?_ hfac
    rw [exponentialPotential, exponentialPotential, law_loading _ hl1, law_loading _ hl2]
  · have hl2' := not_le.mp hl2
    have hm2 : 0 < d2 := lt_of_lt_of_le h1 h12
    have hL2 := exponentialLoad_nonneg hg hs hm2.le
    have hL1 := exponentialLoad_nonneg hg hs h1.le
    by_cases hl1 : d1 - 1 / 10 ^ 15 ≤ d
    · refine le_trans ?_ hfac
      rw [exponentialPotential, exponentialPotential, law_loading _ hl1, law_unloading _ hd hl2']
      rcases eq_or_lt_of_le hd with h' | h'
      · rw [← h']; simp [exponentialLoad_eq, expCurve_zero]
      · have hr := exponentialLoad_ratio hg hs h' (show d ≤ d2 by linarith)
        rw [div_mul_eq_mul_div, div_le_iff₀ (by positivity)]
        have := exponentialLoad_nonneg hg hs hd
        nlinarith [mul_nonneg this (show (0 : ℝ) ≤ 1 / 10 ^ 30 by positivity)]
    · rw [exponentialPotential, exponentialPotential, law_unloading _ hd hl2', law_unloading _ hd (not_le.mp hl1)]
      have hr := exponentialLoad_ratio hg hs h1 h12
      have hk : exponentialLoad gamma sigmaC d2 / (d2 ^ 2 + 1 / 10 ^ 30)
          ≤ exponentialLoad gamma sigmaC d1 / (d1 ^ 2 + 1 / 10 ^ 30) * (1 + 1 / 10 ^ 30 / d1 ^ 2) := by
        have he : exponentialLoad gamma sigmaC d1 / (d1 ^ 2 + 1 / 10 ^ 30) * (1 + 1 / 10 ^ 30 / d1 ^ 2)
            = exponentialLoad gamma sigmaC d1 / d1 ^ 2 := by field_simp
        rw [he, div_le_div_iff₀ (by positivity) (by positivity)]
        nlinarith [mul_nonneg hL1 (show (0 : ℝ) ≤ 1 / 10 ^ 30 by positivity)]
      calc _ ≤ exponentialLoad gamma sigmaC d1 / (d1 ^ 2 + 1 / 10 ^ 30) * (1 + 1 / 10 ^ 30 / d1 ^ 2) * d ^ 2 :=
            mul_le_mul_of_nonneg_right hk (by positivity)
        _ = _ := by ring

example : (0 : ℝ) < 15 ∧ (0 : ℝ) < 20000 := by norm_num

/-- Unloading retraces a quadratic through the origin that starts at the energy of the largest opening. -/
theorem C87_unloading_path (load : ℝ → ℝ) {dmax t : ℝ} (ht : 0 ≤ t) (hu : t * dmax < dmax - 1 / 10 ^ 15) (hm : 0 < dmax) :
    cohesiveLaw load (t * dmax) dmax = t ^ 2 * load dmax * (1 - 1 / 10 ^ 30 / (dmax ^ 2 + 1 / 10 ^ 30)) := by
  rw [law_unloading _ (by positivity) hu]
  field_simp
  ring

/-- No dissipation: the law has irreversibility in its stiffness only. Opened to `dmax` and then closed, the interface
gives back all of the stored energy except for a fraction of order `1e-30 / δ_max²` and the jump at `δ_max`: over the
whole closing path the energy released is at least `t²` times the energy spent, for every `t < 1`. -/
theorem C87_closing_returns_the_energy {gamma sigmaC : ℝ} (hg : 0 < gamma) (hs : 0 < sigmaC) {dmax t : ℝ} (ht : 0 ≤ t)
    (hm : 1 / 10 ^ 10 ≤ dmax) (hu : t * dmax < dmax - 1 / 10 ^ 15) :
    exponentialPotential gamma sigmaC (t * dmax) dmax - exponentialPotential gamma sigmaC 0 dmax
      ≥ t ^ 2 * (1 - 1 / 10 ^ 10) * exponentialPotential gamma sigmaC dmax dmax := by
  have hm0 : (0 : ℝ) < dmax := lt_of_lt_of_le (by positivity) hm
  have h0 : (0 : ℝ) < 1 / 10 ^ 15 := by positivity
  rw [(C87_exponential_energy hg hs dmax).2.1, sub_zero, exponentialPotential, C87_unloading_path _ ht hu hm0,
    exponentialPotential, law_loading _ (by linarith)]
  have hl := exponentialLoad_nonneg hg hs hm0.le
  have hr : (1 : ℝ) / 10 ^ 30 / (dmax ^ 2 + 1 / 10 ^ 30) ≤ 1 / 10 ^ 10 := by
    rw [div_le_iff₀ (by positivity)]
    have : (1 / 10 ^ 10 : ℝ) ^ 2 ≤ dmax ^ 2 := by gcongr
    norm_num at this ⊢
    linarith
  calc _ = t ^ 2 * exponentialLoad gamma sigmaC dmax * (1 - 1 / 10 ^ 10) := by ring
    _ ≤ _ := by
      apply mul_le_mul_of_nonneg_left _ (by positivity)
      linarith

/-- On reversal the traction jumps above the critical traction: opened to twice the critical opening, the interface
carries more than `sigma_c` just after it starts to close. -/
theorem C87_unloading_exceeds_critical_traction {gamma sigmaC : ℝ} (hg : 0 < gamma) (hs : 0 < sigmaC)
    (hc : 1 / 10 ^ 10 ≤ critOpening gamma sigmaC) :
    ∃ d t, 0 < d ∧ d < 2 * critOpening gamma sigmaC
      ∧ IsTraction (exponentialPotential gamma sigmaC) (2 * critOpening gamma sigmaC) d t ∧ sigmaC * (5 / 4) < t := by
  set c := critOpening gamma sigmaC with hcdef
  have hcp : 0 < c := critOpening_pos hg hs
  have h0 : (0 : ℝ) < 1 / 10 ^ 15 := by positivity
  have hlt : 19 / 10 * c < 2 * c - 1 / 10 ^ 15 := by norm_num at hc ⊢; linarith
  refine ⟨19 / 10 * c, exponentialLoad gamma sigmaC (2 * c) / ((2 * c) ^ 2 + 1 / 10 ^ 30) * (2 * (19 / 10 * c)),
    by positivity, by linarith, ?_, ?_⟩
  · have h1 : HasDerivAt (fun y : ℝ => y ^ 2) (2 * (19 / 10 * c)) (19 / 10 * c) := by simpa using hasDerivAt_pow 2 (19 / 10 * c)
    refine HasDerivAt.congr_of_eventuallyEq (h1.const_mul (exponentialLoad gamma sigmaC (2 * c) / ((2 * c) ^ 2 + 1 / 10 ^ 30))) ?_
    filter_upwards [gt_mem_nhds hlt, lt_mem_nhds (show (0 : ℝ) < 19 / 10 * c by positivity)] with x hx hx0
    exact law_unloading _ hx0.le hx
  · have hgc : gamma = Real.exp 1 * sigmaC * c := by rw [hcdef]; unfold critOpening; field_simp
    have hcurve : exponentialLoad gamma sigmaC (2 * c) = Real.exp 1 * sigmaC * c * (1 - 3 * Real.exp (-2)) := by
      rw [exponentialLoad_eq, ← hcdef, mul_div_assoc, div_self hcp.ne', ← hgc]
      simp only [expCurve]; ring_nf
    have he := Real.exp_one_gt_d9
    have hneg : Real.exp (-2) = (Real.exp 1)⁻¹ * (Real.exp 1)⁻¹ := by
      rw [← Real.exp_neg, ← Real.exp_add]; norm_num
    have hinv : (Real.exp 1)⁻¹ ≤ 37 / 100 := by
      rw [inv_le_comm₀ (Real.exp_pos 1) (by norm_num)]; linarith
    have hinv0 : 0 < (Real.exp 1)⁻¹ := by positivity
    have hmain : Real.exp 1 * (1 - 3 * Real.exp (-2)) ≥ 16 / 10 := by
      have : Real.exp 1 * (1 - 3 * Real.exp (-2)) = Real.exp 1 - 3 * (Real.exp 1)⁻¹ := by
        rw [hneg]; field_simp
      rw [this]; linarith
    rw [hcurve, div_mul_eq_mul_div, lt_div_iff₀ (by positivity)]
    have h30 : (1 : ℝ) / 10 ^ 30 ≤ 1 / 100 * c ^ 2 := by
      have : (1 / 10 ^ 10 : ℝ) ^ 2 ≤ c ^ 2 := by gcongr
      norm_num at this ⊢
      linarith
    have hA : Real.exp 1 * sigmaC * c * (1 - 3 * Real.exp (-2)) * (2 * (19 / 10 * c))
        = sigmaC * c ^ 2 * (38 / 10) * (Real.exp 1 * (1 - 3 * Real.exp (-2))) := by ring
    rw [hA]
    have hsc : 0 < sigmaC * c ^ 2 := by positivity
    calc sigmaC * (5 / 4) * ((2 * c) ^ 2 + 1 / 10 ^ 30)
        ≤ sigmaC * (5 / 4) * ((2 * c) ^ 2 + 1 / 100 * c ^ 2) := by gcongr
      _ = sigmaC * c ^ 2 * (401 / 80) := by ring
      _ < sigmaC * c ^ 2 * (38 / 10) * (16 / 10) := by nlinarith
      _ ≤ _ := by gcongr

example : ∃ gamma sigmaC : ℝ, 0 < gamma ∧ 0 < sigmaC ∧ 1 / 10 ^ 10 ≤ critOpening gamma sigmaC := by
  refine ⟨15, 20000, by norm_num, by norm_num, ?_⟩
  unfold critOpening
  have := Real.exp_one_lt_d9
  rw [le_div_iff₀ (by positivity)]
  norm_num
  linarith

/-! ## The bilinear law -/

section bilinear
variable {K : Type*} [Field K] [LinearOrder K] [IsStrictOrderedRing K]

/-- The documented law: quadratic with stiffness `k₀ = σc² / (2Γ)` up to `δ₀ = σc / k₀`, then softening to `δ_f = 2Γ/σc`. -/
def documentedBilinear (gamma sigmaC d : K) : K :=
  let deltaF := 2 * gamma / sigmaC
  let k0 := sigmaC ^ 2 / (2 * gamma)
  let delta0 := sigmaC / k0
  if d < delta0 then 1 / 2 * k0 * d ^ 2
  else if d < deltaF then gamma - 1 / 2 * sigmaC * (deltaF - d) ^ 2 / (deltaF - delta0)
  else gamma

theorem bilinear_onset {gamma sigmaC : K} (hg : 0 < gamma) (hs : 0 < sigmaC) :
    2 * gamma / (sigmaC * (2 * gamma / sigmaC)) = 1 := by
  have : sigmaC * (2 * gamma / sigmaC) = 2 * gamma := by field_simp
  rw [this, div_self (by positivity)]

theorem bilinearLoad_eq {gamma sigmaC : K} (hg : 0 < gamma) (hs : 0 < sigmaC) (d : K) :
    bilinearLoad gamma sigmaC d = if d < 1 then 1 / 2 * sigmaC * d ^ 2
      else if d < 2 * gamma / sigmaC then
        gamma - 1 / 2 * sigmaC * (2 * gamma / sigmaC - d) ^ 2 / (2 * gamma / sigmaC - 1 + 1 / 10 ^ 30)
      else gamma := by
  simp only [bilinearLoad, bilinear_onset hg hs, div_one]

/-- The onset of softening sits at opening `1`, whatever the parameters and the units. -/
theorem C87_bilinear_onset_fixed {gamma sigmaC : K} (hg : 0 < gamma) (hs : 0 < sigmaC) {d : K} (hd : d < 1) :
    bilinearPotential gamma sigmaC d 0 = 1 / 2 * sigmaC * d ^ 2 ∨ d < -(1 / 10 ^ 15) := by
  by_cases h : (0 : K) - 1 / 10 ^ 15 ≤ d
  · left; rw [bilinearPotential, law_loading _ h, bilinearLoad_eq hg hs, if_pos hd]
  · right; have := not_le.mp h; linarith

/-- Whenever `σc > 2Γ` the stored energy exceeds the fracture energy on the way to separation, and falls back later. -/
theorem C87_bilinear_exceeds_fracture_energy {gamma sigmaC : K} (hg : 0 < gamma) (hs : 2 * gamma < sigmaC) :
    ∃ d, 0 < d ∧ d < 1 ∧ gamma < bilinearPotential gamma sigmaC d 0 ∧ bilinearPotential gamma sigmaC 1 0 = gamma := by
  have hs0 : 0 < sigmaC := by linarith
  have hr : 2 * gamma / sigmaC < 1 := by rw [div_lt_one hs0]; exact hs
  have hr0 : 0 < 2 * gamma / sigmaC := by positivity
  have ht : (0 : K) < 1 / 10 ^ 15 := by positivity
  refine ⟨(1 + 2 * gamma / sigmaC) / 2, by linarith, by linarith, ?_, ?_⟩
  · rw [bilinearPotential, law_loading _ (by linarith), bilinearLoad_eq hg hs0, if_pos (by linarith)]
    have h2 : 2 * gamma / sigmaC < ((1 + 2 * gamma / sigmaC) / 2) ^ 2 := by
      nlinarith [sq_pos_of_pos (show (0 : K) < 1 - 2 * gamma / sigmaC by linarith)]
    have h3 := mul_lt_mul_of_pos_left h2 hs0
    rw [mul_div_cancel₀ _ hs0.ne'] at h3
    linarith
  · rw [bilinearPotential, law_loading _ (by linarith), bilinearLoad_eq hg hs0, if_neg (lt_irrefl _), if_neg (by linarith)]

/-- With the parameters of the module's own usage example, an opening of one half stores 2500 J/m² instead of 15. -/
theorem C87_bilinear_example : bilinearPotential (15 : ℚ) 20000 (1 / 2) 0 = 2500 ∧ documentedBilinear (15 : ℚ) 20000 (1 / 2) = 15 := by
  decide +kernel

/-- For `σc < 2Γ` the law is well formed: energy between `0` and `Γ`, zero at rest, `Γ` once open beyond `2Γ/σc`, and
non-decreasing under monotone opening. Missing: the law for `σc ≥ 2Γ`, where it fails, and the documented onset. -/
theorem C87_bilinear_partial {gamma sigmaC : K} (hg : 0 < gamma) (hs0 : 0 < sigmaC) (hs : sigmaC < 2 * gamma) :
    bilinearPotential gamma sigmaC 0 0 = 0
      ∧ (∀ d, 2 * gamma / sigmaC ≤ d → bilinearPotential gamma sigmaC d 0 = gamma)
      ∧ (∀ d, 0 ≤ d → 0 ≤ bilinearPotential gamma sigmaC d 0 ∧ bilinearPotential gamma sigmaC d 0 ≤ gamma)
      ∧ ∀ a b, 0 ≤ a → a ≤ b → bilinearPotential gamma sigmaC a 0 ≤ bilinearPotential gamma sigmaC b 0 := by
  have ht : (0 : K) < 1 / 10 ^ 15 := by positivity
  have hr : 1 < 2 * gamma / sigmaC := by rw [lt_div_iff₀ hs0]; linarith
  have hgs : gamma = 1 / 2 * sigmaC * (2 * gamma / sigmaC) := by field_simp
  have hlaw : ∀ d : K, 0 ≤ d → bilinearPotential gamma sigmaC d 0 = bilinearLoad gamma sigmaC d := fun d hd =>
    law_loading _ (by linarith)
  have h1 : (0 : K) ≤ 1 / 2 * sigmaC := by positivity
  set f := 2 * gamma / sigmaC with hf
  have hden : (0 : K) < f - 1 + 1 / 10 ^ 30 := by
    have : (0 : K) < 1 / 10 ^ 30 := by positivity
    linarith
  have hdesc : ∀ d, 1 ≤ d → d < f → 1 / 2 * sigmaC ≤ gamma - 1 / 2 * sigmaC * (f - d) ^ 2 / (f - 1 + 1 / 10 ^ 30) := by
    intro d hd hdf
    have hq : (f - d) ^ 2 / (f - 1 + 1 / 10 ^ 30) ≤ f - 1 := by
      rw [div_le_iff₀ hden]
      have ha : (f - d) ^ 2 ≤ (f - 1) ^ 2 := by
        apply pow_le_pow_left₀ (by linarith); linarith
      have : (0 : K) ≤ (f - 1) * (1 / 10 ^ 30) := mul_nonneg (by linarith) (by positivity)
      nlinarith
    have hm := mul_le_mul_of_nonneg_left hq h1
    rw [mul_div_assoc]
    linarith
  have hmono : ∀ a b, 0 ≤ a → a ≤ b → bilinearPotential gamma sigmaC a 0 ≤ bilinearPotential gamma sigmaC b 0 := by
    intro a b ha hab
    rw [hlaw a ha, hlaw b (ha.trans hab), bilinearLoad_eq hg hs0, bilinearLoad_eq hg hs0, ← hf]
    by_cases ha1 : a < 1
    · rw [if_pos ha1]
      by_cases hb1 : b < 1
      · rw [if_pos hb1]; gcongr
      · rw [if_neg hb1]
        have hasq : 1 / 2 * sigmaC * a ^ 2 ≤ 1 / 2 * sigmaC := by
          have : a ^ 2 ≤ 1 := by nlinarith
          have := mul_le_mul_of_nonneg_left this h1
          linarith
        by_cases hbf : b < f
        · rw [if_pos hbf]; exact hasq.trans (hdesc b (not_lt.mp hb1) hbf)
        · rw [if_neg hbf]
          refine hasq.trans ?_
          have := mul_le_mul_of_nonneg_left hr.le h1
          linarith
    · have hb1 : ¬ b < 1 := by intro h; exact ha1 (lt_of_le_of_lt hab h)
      rw [if_neg ha1, if_neg hb1]
      by_cases haf : a < f
      · rw [if_pos haf]
        by_cases hbf : b < f
        · rw [if_pos hbf]
          have hq : (f - b) ^ 2 ≤ (f - a) ^ 2 := by apply pow_le_pow_left₀ (by linarith); linarith
          have : 1 / 2 * sigmaC * (f - b) ^ 2 / (f - 1 + 1 / 10 ^ 30) ≤ 1 / 2 * sigmaC * (f - a) ^ 2 / (f - 1 + 1 / 10 ^ 30) := by gcongr
          linarith
        · rw [if_neg hbf]
          have : 0 ≤ 1 / 2 * sigmaC * (f - a) ^ 2 / (f - 1 + 1 / 10 ^ 30) := by positivity
          linarith
      · have hbf : ¬ b < f := by intro h; exact haf (lt_of_le_of_lt hab h)
        rw [if_neg haf, if_neg hbf]
  have hzero : bilinearPotential gamma sigmaC 0 0 = 0 := by
    rw [hlaw 0 le_rfl, bilinearLoad_eq hg hs0, if_pos zero_lt_one]; ring
  have hfull : ∀ d, f ≤ d → bilinearPotential gamma sigmaC d 0 = gamma := by
    intro d hd
    rw [hlaw d (by linarith), bilinearLoad_eq hg hs0, if_neg (by linarith), ← hf, if_neg (by linarith)]
  refine ⟨hzero, hfull, fun d hd => ⟨?_, ?_⟩, hmono⟩
  · exact hzero.symm.le.trans (hmono 0 d le_rfl hd)
  · exact (hmono d (max d f) hd (le_max_left _ _)).trans (hfull (max d f) (le_max_right _ _)).le

example : (0 : ℚ) < 1 ∧ (1 : ℚ) < 2 * 1 := by decide +kernel

end bilinear

end Verif.Props
