import Verif.Model.Projection
import Verif.Spec.Projection
import Mathlib.Analysis.SpecialFunctions.Trigonometric.DerivHyp
import Mathlib.Analysis.SpecialFunctions.Exp
import Mathlib.Tactic.Linarith
import Mathlib.Tactic.Positivity
import Mathlib.Tactic.FieldSimp
import Mathlib.Data.List.Sort
import Mathlib.Data.List.GetD
import Mathlib.Topology.Algebra.Order.Field

/-!
# C97: Heaviside projection and volume fraction threshold
-/

namespace Verif.Props
open Verif.Model Filter

/-- The projected value of one entry is the logistic function of slope `2 β`. -/
theorem heaviside_logistic (x : ℝ) : (Real.tanh x + 1) / 2 = 1 / (1 + Real.exp (-(2 * x))) := by
  rw [Real.tanh_eq_sinh_div_cosh, Real.sinh_eq, Real.cosh_eq]
  have h1 := Real.exp_pos x
  have h2 := Real.exp_pos (-x)
  have e : Real.exp (-(2 * x)) = Real.exp (-x) / Real.exp x := by rw [← Real.exp_sub]; congr 1; ring
  rw [e]
  field_simp
  ring

/-- The projection of one density value. -/
theorem heaviside_getD (beta th : ℝ) (rho : List ℝ) (i : ℕ) (hi : i < rho.length) :
    (heaviside Real.tanh beta th rho).getD i 0 = 1 / (1 + Real.exp (-(2 * (beta * (rho.getD i 0 - th))))) := by
  unfold heaviside
  rw [List.getD_eq_getElem _ _ (by simpa using hi), List.getElem_map, heaviside_logistic, List.getD_eq_getElem _ _ hi]

/-- **C97** (range). The projected density has the shape of the input and lies strictly between 0 and 1, whatever the
density, the sharpness and the threshold. -/
theorem C97_range (beta th : ℝ) (rho : List ℝ) :
    (heaviside Real.tanh beta th rho).length = rho.length ∧
    ∀ y ∈ heaviside Real.tanh beta th rho, 0 < y ∧ y < 1 := by
  refine ⟨by simp [heaviside], fun y hy => ?_⟩
  simp only [heaviside, List.mem_map] at hy
  obtain ⟨x, -, rfl⟩ := hy
  rw [heaviside_logistic]
  have := Real.exp_pos (-(2 * (beta * (x - th))))
  exact ⟨by positivity, by rw [div_lt_one (by positivity)]; linarith⟩

/-- **C97** (order). With positive sharpness the projection keeps and reflects the order of the densities; it is `1/2`
exactly at the threshold and above `1/2` exactly above it. -/
theorem C97_order (beta th : ℝ) (hb : 0 < beta) (rho : List ℝ) (i j : ℕ) (hi : i < rho.length) (hj : j < rho.length) :
    ((heaviside Real.tanh beta th rho).getD i 0 < (heaviside Real.tanh beta th rho).getD j 0
      ↔ rho.getD i 0 < rho.getD j 0) ∧
    ((heaviside Real.tanh beta th rho).getD i 0 = 1 / 2 ↔ rho.getD i 0 = th) ∧
    (1 / 2 < (heaviside Real.tanh beta th rho).getD i 0 ↔ th < rho.getD i 0) := by
  rw [heaviside_getD beta th rho i hi, heaviside_getD beta th rho j hj]
  have hlt : ∀ x y : ℝ, 1 / (1 + Real.exp (-(2 * (beta * (x - th))))) < 1 / (1 + Real.exp (-(2 * (beta * (y - th))))) ↔ x < y := by
    intro x y
    have h1 := Real.exp_pos (-(2 * (beta * (x - th))))
    have h2 := Real.exp_pos (-(2 * (beta * (y - th))))
    rw [one_div_lt_one_div (by positivity) (by positivity), add_lt_add_iff_left, Real.exp_lt_exp]
    constructor
    · intro h; by_contra hc
      have := mul_nonneg hb.le (sub_nonneg.mpr (not_lt.mp hc))
      linarith
    · intro h
      have := mul_pos hb (sub_pos.mpr h)
      linarith
  have hth : (1 : ℝ) / 2 = 1 / (1 + Real.exp (-(2 * (beta * (th - th))))) := by simp; norm_num
  refine ⟨hlt _ _, ?_, ?_⟩
  · constructor
    · intro h
      rw [hth] at h
      rcases lt_trichotomy (rho.getD i 0) th with h1 | h1 | h1
      · exact absurd h ((hlt _ _).mpr h1).ne
      · exact h1
      · exact absurd h ((hlt _ _).mpr h1).ne'
    · intro h; rw [h, ← hth]
  · rw [hth]; exact hlt _ _

/-- **C97** (how sharp). An entry at distance `m` from the threshold is projected to within `exp (-2 β m)` of 0 or 1. -/
theorem C97_sharpness (beta th m : ℝ) (hb : 0 ≤ beta) (rho : List ℝ) (i : ℕ) (hi : i < rho.length) :
    (th + m ≤ rho.getD i 0 → 1 - Real.exp (-(2 * beta * m)) ≤ (heaviside Real.tanh beta th rho).getD i 0) ∧
    (rho.getD i 0 ≤ th - m → (heaviside Real.tanh beta th rho).getD i 0 ≤ Real.exp (-(2 * beta * m))) := by
  rw [heaviside_getD beta th rho i hi]
  set x := rho.getD i 0
  have he := Real.exp_pos (-(2 * (beta * (x - th))))
  constructor
  · intro h
    have hle : Real.exp (-(2 * (beta * (x - th)))) ≤ Real.exp (-(2 * beta * m)) := by
      apply Real.exp_le_exp.mpr
      have := mul_le_mul_of_nonneg_left (show m ≤ x - th by linarith) hb
      linarith
    have : 1 - Real.exp (-(2 * (beta * (x - th)))) ≤ 1 / (1 + Real.exp (-(2 * (beta * (x - th))))) := by
      rw [le_div_iff₀ (by positivity)]
      nlinarith [sq_nonneg (Real.exp (-(2 * (beta * (x - th)))))]
    linarith
  · intro h
    have hle : Real.exp (2 * beta * m) ≤ Real.exp (-(2 * (beta * (x - th)))) := by
      apply Real.exp_le_exp.mpr
      have := mul_le_mul_of_nonneg_left (show m ≤ th - x by linarith) hb
      linarith
    rw [Real.exp_neg (2 * beta * m), ← one_div]
    exact one_div_le_one_div_of_le (Real.exp_pos _) (by linarith)

/-! ### The threshold -/

section
variable {K : Type*} [Field K] [LinearOrder K] [IsStrictOrderedRing K] [FloorRing K]

theorem sorted_mono (rho : List K) (i j : ℕ) (hij : i ≤ j) (hj : j < rho.length) :
    (rho.mergeSort (fun x y => decide (x ≤ y))).getD i 0 ≤ (rho.mergeSort (fun x y => decide (x ≤ y))).getD j 0 := by
  have hp : (rho.mergeSort (fun x y => decide (x ≤ y))).Pairwise (fun a b => decide (a ≤ b) = true) :=
    List.pairwise_mergeSort (fun a b c h1 h2 => by simp at *; exact h1.trans h2)
      (fun a b => by simp; exact le_total a b) rho
  have hl : (rho.mergeSort (fun x y => decide (x ≤ y))).length = rho.length := List.length_mergeSort _
  rw [List.getD_eq_getElem _ _ (by omega), List.getD_eq_getElem _ _ (by omega)]
  rcases hij.lt_or_eq with h | rfl
  · have := List.pairwise_iff_getElem.mp hp i j (by omega) (by omega) h
    simpa using this
  · exact le_refl _

theorem clip_of_mem (n : ℕ) (i : ℤ) (h1 : i ≤ (n - 1 : ℕ)) : clipIndex n i = i.toNat := by
  unfold clipIndex; omega

theorem percentile_between (rho : List K) (q : K) (hne : rho ≠ []) (h0 : 0 ≤ q) (h1 : q ≤ 100) :
    ⌈q / 100 * ((rho.length - 1 : ℕ) : K)⌉.toNat < rho.length ∧
    (rho.mergeSort (fun x y => decide (x ≤ y))).getD ⌊q / 100 * ((rho.length - 1 : ℕ) : K)⌋.toNat 0 ≤ percentile rho q ∧
    percentile rho q ≤ (rho.mergeSort (fun x y => decide (x ≤ y))).getD ⌈q / 100 * ((rho.length - 1 : ℕ) : K)⌉.toNat 0 := by
  have hn : 0 < rho.length := List.length_pos_iff.mpr hne
  have hp0 : 0 ≤ q / 100 * ((rho.length - 1 : ℕ) : K) := by positivity
  have hp1 : q / 100 * ((rho.length - 1 : ℕ) : K) ≤ ((rho.length - 1 : ℕ) : K) :=
    mul_le_of_le_one_left (Nat.cast_nonneg _) (by rw [div_le_one (by norm_num)]; exact h1)
  obtain ⟨p, hp⟩ : ∃ p, p = q / 100 * ((rho.length - 1 : ℕ) : K) := ⟨_, rfl⟩
  rw [← hp] at hp0 hp1 ⊢
  have hf : ⌊p⌋ ≤ ((rho.length - 1 : ℕ) : ℤ) := by
    have := Int.floor_le_floor hp1
    rwa [Int.floor_natCast] at this
  have hc : ⌈p⌉ ≤ ((rho.length - 1 : ℕ) : ℤ) := Int.ceil_le.mpr (by simpa using hp1)
  have hf0 : 0 ≤ ⌊p⌋ := Int.floor_nonneg.mpr hp0
  have hfc : ⌊p⌋ ≤ ⌈p⌉ := Int.floor_le_ceil p
  have hcl : ⌈p⌉.toNat < rho.length := by omega
  have hw0 : 0 ≤ p - (⌊p⌋ : K) := sub_nonneg.mpr (Int.floor_le p)
  have hw1 : p - (⌊p⌋ : K) ≤ 1 := by have := Int.lt_floor_add_one p; linarith
  have hm := sorted_mono rho ⌊p⌋.toNat ⌈p⌉.toNat (by omega) hcl
  refine ⟨hcl, ?_⟩
  unfold percentile
  simp only [← hp, clip_of_mem _ _ hf, clip_of_mem _ _ hc]
  obtain ⟨w, hw⟩ : ∃ w, w = p - (⌊p⌋ : K) := ⟨_, rfl⟩
  rw [← hw] at hw0 hw1 ⊢
  constructor <;> nlinarith

theorem countP_take_le {α : Type*} (p : α → Bool) (l : List α) (k : ℕ) (h : ∀ i (hi : i < l.length), i < k → p l[i] = false) :
    l.countP p ≤ l.length - k := by
  rw [← List.take_append_drop k l, List.countP_append]
  have : (l.take k).countP p = 0 := by
    rw [List.countP_eq_zero]
    intro x hx
    obtain ⟨i, hi, rfl⟩ := List.mem_iff_getElem.mp hx
    rw [List.getElem_take]
    simp at hi
    rw [h i hi.2 hi.1]; decide
  rw [this, zero_add]
  refine (List.countP_le_length).trans ?_
  simp

/-- **C97** (the threshold selects the target fraction, up to one entry). For every non-empty density of `n` entries and
every target `t` between 0 and 1, fewer than `t (n-1) + 1` entries lie above the threshold and more than `t (n-1)` lie at or
above it. -/
theorem C97_threshold_partial (rho : List K) (hne : rho ≠ []) (t : K) (h0 : 0 ≤ t) (h1 : t ≤ 1) :
    (Spec.above rho (volumeThreshold rho t) : K) < t * ((rho.length - 1 : ℕ) : K) + 1 ∧
    t * ((rho.length - 1 : ℕ) : K) < Spec.above rho (volumeThreshold rho t) + Spec.tied rho (volumeThreshold rho t) := by
  have hn : 0 < rho.length := List.length_pos_iff.mpr hne
  obtain ⟨hc, hlo, hhi⟩ := percentile_between rho ((1 - t) * 100) hne (by nlinarith) (by nlinarith)
  change _ ≤ volumeThreshold rho t at hlo
  change volumeThreshold rho t ≤ _ at hhi
  have e : (1 - t) * 100 / 100 = 1 - t := by field_simp
  rw [e] at hc hlo hhi
  obtain ⟨p, hp⟩ : ∃ p, p = (1 - t) * ((rho.length - 1 : ℕ) : K) := ⟨_, rfl⟩
  rw [← hp] at hc hlo hhi
  obtain ⟨T, hT⟩ : ∃ T, T = volumeThreshold rho t := ⟨_, rfl⟩
  rw [← hT] at hlo hhi ⊢
  obtain ⟨a, ha⟩ : ∃ a, a = rho.mergeSort (fun x y => decide (x ≤ y)) := ⟨_, rfl⟩
  have hmono := sorted_mono rho
  rw [← ha] at hlo hhi hmono
  have hperm : a.Perm rho := ha ▸ List.mergeSort_perm _ _
  have hlen : a.length = rho.length := hperm.length_eq
  have hp0 : 0 ≤ p := by rw [hp]; exact mul_nonneg (by linarith) (Nat.cast_nonneg _)
  have hf0 : 0 ≤ ⌊p⌋ := Int.floor_nonneg.mpr hp0
  have hfc : ⌊p⌋ ≤ ⌈p⌉ := Int.floor_le_ceil p
  have hcast : ((rho.length - 1 : ℕ) : K) = (rho.length : K) - 1 := by rw [Nat.cast_sub hn]; simp
  constructor
  · have hle : Spec.above rho T ≤ rho.length - (⌊p⌋.toNat + 1) := by
      unfold Spec.above
      rw [← hperm.countP_eq, ← hlen]
      apply countP_take_le
      intro i hi hik
      have := hmono i ⌊p⌋.toNat (by omega) (by omega)
      rw [List.getD_eq_getElem _ _ hi] at this
      simpa using this.trans hlo
    have hk : ((⌊p⌋.toNat : ℕ) : K) = (⌊p⌋ : K) := by
      rw [← Int.cast_natCast, Int.toNat_of_nonneg hf0]
    have h2 : (Spec.above rho T : K) ≤ (rho.length : K) - ((⌊p⌋ : K) + 1) := by
      have h3 : Spec.above rho T + (⌊p⌋.toNat + 1) ≤ rho.length := by omega
      have h4 : ((Spec.above rho T + (⌊p⌋.toNat + 1) : ℕ) : K) ≤ (rho.length : K) := Nat.cast_le.mpr h3
      push_cast at h4
      rw [hk] at h4
      linarith
    have h5 := Int.lt_floor_add_one p
    rw [hcast] at hp ⊢
    nlinarith
  · have hle : rho.length - ⌈p⌉.toNat ≤ Spec.above rho T + Spec.tied rho T := by
      have hsplit : rho.countP (fun x => decide (x < T)) ≤ rho.length - (rho.length - ⌈p⌉.toNat) := by
        rw [← hperm.countP_eq, ← hlen, ← List.countP_reverse]
        have := countP_take_le (fun x => decide (x < T)) a.reverse (a.length - ⌈p⌉.toNat) (by
          intro i hi hik
          simp at hi
          rw [List.getElem_reverse]
          have := hmono ⌈p⌉.toNat (a.length - 1 - i) (by omega) (by omega)
          rw [List.getD_eq_getElem a _ (show a.length - 1 - i < a.length by omega)] at this
          simpa using hhi.trans this)
        simpa using this
      have htot : rho.countP (fun x => decide (x < T)) + (Spec.above rho T + Spec.tied rho T) = rho.length := by
        unfold Spec.above Spec.tied
        clear * -
        induction rho with
        | nil => simp
        | cons x l ih =>
          simp only [List.countP_cons, List.length_cons]
          rcases lt_trichotomy x T with h | h | h
          · simp [h, h.ne, not_lt.mpr h.le]; omega
          · subst h; simp; omega
          · simp [h, h.ne', not_lt.mpr h.le]; omega
      omega
    have hk : ((⌈p⌉.toNat : ℕ) : K) = (⌈p⌉ : K) := by
      rw [← Int.cast_natCast, Int.toNat_of_nonneg (hf0.trans hfc)]
    have h2 : (rho.length : K) - (⌈p⌉ : K) ≤ (Spec.above rho T : K) + Spec.tied rho T := by
      have h3 : rho.length ≤ (Spec.above rho T + Spec.tied rho T) + ⌈p⌉.toNat := by omega
      have h4 : (rho.length : K) ≤ ((Spec.above rho T + Spec.tied rho T + ⌈p⌉.toNat : ℕ) : K) := Nat.cast_le.mpr h3
      push_cast at h4
      rw [hk] at h4
      linarith
    have h5 := Int.ceil_lt_add_one p
    rw [hcast] at hp ⊢
    nlinarith

/-- **C97** (the threshold is a density value of the field or between two of them). -/
theorem C97_threshold_in_range (rho : List K) (hne : rho ≠ []) (t : K) (h0 : 0 ≤ t) (h1 : t ≤ 1) :
    (∃ x ∈ rho, x ≤ volumeThreshold rho t) ∧ ∃ x ∈ rho, volumeThreshold rho t ≤ x := by
  obtain ⟨hc, hlo, hhi⟩ := percentile_between rho ((1 - t) * 100) hne (by nlinarith) (by nlinarith)
  have hlen : (rho.mergeSort (fun x y => decide (x ≤ y))).length = rho.length := List.length_mergeSort _
  have hfc := Int.floor_le_ceil ((1 - t) * 100 / 100 * ((rho.length - 1 : ℕ) : K))
  have hmem : ∀ i < rho.length, (rho.mergeSort (fun x y => decide (x ≤ y))).getD i 0 ∈ rho := by
    intro i hi
    rw [List.getD_eq_getElem _ _ (by omega)]
    exact (List.mergeSort_perm _ _).mem_iff.mp (List.getElem_mem _)
  exact ⟨⟨_, hmem _ (by omega), hlo⟩, ⟨_, hmem _ hc, hhi⟩⟩

/-- A uniform density has its own value as threshold, whatever the target. -/
theorem volumeThreshold_uniform (n : ℕ) (hn : 0 < n) (x t : K) (h0 : 0 ≤ t) (h1 : t ≤ 1) :
    volumeThreshold (List.replicate n x) t = x := by
  obtain ⟨⟨a, ha, h2⟩, b, hb, h3⟩ := C97_threshold_in_range (List.replicate n x) (by simp; omega) t h0 h1
  rw [List.eq_of_mem_replicate ha] at h2
  rw [List.eq_of_mem_replicate hb] at h3
  exact le_antisymm h3 h2

end

/-- **C97 does not give the target volume fraction**: a uniform density is projected at its own threshold to `1/2`
everywhere, whatever the target and the sharpness. -/
theorem C97_volume_fraction_violated (n : ℕ) (hn : 0 < n) (x t beta : ℝ) (h0 : 0 ≤ t) (h1 : t ≤ 1) :
    Spec.mean (heaviside Real.tanh beta (volumeThreshold (List.replicate n x) t) (List.replicate n x)) = 1 / 2 := by
  rw [volumeThreshold_uniform n hn x t h0 h1]
  unfold heaviside Spec.mean
  have : (n : ℝ) ≠ 0 := by positivity
  simp
  field_simp

/-- **C97** (sharp limit). As the sharpness grows, the mean of the projected density tends to the share of the entries above
the threshold, plus half the share of those at it. -/
theorem C97_sharp_limit (th : ℝ) (rho : List ℝ) :
    Tendsto (fun beta => Spec.mean (heaviside Real.tanh beta th rho)) atTop
      (nhds ((Spec.above rho th + Spec.tied rho th / 2) / rho.length)) := by
  unfold Spec.mean heaviside
  simp only [List.length_map]
  refine Tendsto.div_const ?_ _
  unfold Spec.above Spec.tied
  induction rho with
  | nil => simp
  | cons x l ih =>
    have key : Tendsto (fun beta : ℝ => (Real.tanh (beta * (x - th)) + 1) / 2) atTop
        (nhds ((if th < x then 1 else 0) + (if x = th then 1 else 0) / 2)) := by
      have e : (fun beta : ℝ => (Real.tanh (beta * (x - th)) + 1) / 2)
          = fun beta => 1 / (1 + Real.exp (-(2 * (beta * (x - th))))) := by funext b; exact heaviside_logistic _
      rcases lt_trichotomy x th with h | h | h
      · rw [e, if_neg (not_lt.mpr h.le), if_neg h.ne]
        have h1 : Tendsto (fun beta : ℝ => -(2 * (beta * (x - th)))) atTop atTop := by
          have : (fun beta : ℝ => -(2 * (beta * (x - th)))) = fun beta => beta * (2 * (th - x)) := by funext b; ring
          rw [this]
          exact tendsto_id.atTop_mul_const (by linarith)
        have h2 := tendsto_atTop_add_const_left atTop (1 : ℝ) (Real.tendsto_exp_atTop.comp h1)
        simp only [one_div, zero_div, add_zero]
        exact h2.inv_tendsto_atTop
      · subst h
        simp
      · rw [e, if_pos h, if_neg h.ne']
        have h1 : Tendsto (fun beta : ℝ => -(2 * (beta * (x - th)))) atTop atBot := by
          have : (fun beta : ℝ => -(2 * (beta * (x - th)))) = fun beta => -(beta * (2 * (x - th))) := by funext b; ring
          rw [this]
          exact tendsto_neg_atTop_atBot.comp (tendsto_id.atTop_mul_const (by linarith))
        have h2 := (Real.tendsto_exp_atBot.comp h1).const_add (1 : ℝ)
        have h3 := h2.inv₀ (by norm_num)
        simpa using h3
    have := key.add ih
    simp only [List.map_cons, List.sum_cons]
    refine this.congr' (Eventually.of_forall fun _ => rfl) |>.trans ?_
    apply le_of_eq
    congr 1
    simp only [List.countP_cons]
    push_cast
    simp only [decide_eq_true_eq]
    ring

/-- **C97** (what remains of the volume fraction). If no density equals the threshold, the volume fraction of the sharp limit
of the projection is within `1/n` of the target. -/
theorem C97_volume_fraction_partial (rho : List ℝ) (hne : rho ≠ []) (t : ℝ) (h0 : 0 ≤ t) (h1 : t ≤ 1)
    (hties : volumeThreshold rho t ∉ rho) :
    ∃ L, Tendsto (fun beta => Spec.mean (heaviside Real.tanh beta (volumeThreshold rho t) rho)) atTop (nhds L) ∧
      |L - t| ≤ 1 / rho.length := by
  refine ⟨_, C97_sharp_limit _ rho, ?_⟩
  obtain ⟨h2, h3⟩ := C97_threshold_partial rho hne t h0 h1
  have hz : Spec.tied rho (volumeThreshold rho t) = 0 := by
    unfold Spec.tied
    rw [List.countP_eq_zero]
    intro x hx
    simp only [decide_eq_true_eq]
    rintro rfl
    exact hties hx
  rw [hz] at h3 ⊢
  have hn : 0 < rho.length := List.length_pos_iff.mpr hne
  have hcast : ((rho.length - 1 : ℕ) : ℝ) = (rho.length : ℝ) - 1 := by rw [Nat.cast_sub hn]; simp
  have hn' : (0 : ℝ) < rho.length := Nat.cast_pos.mpr hn
  rw [hcast] at h2 h3
  simp only [CharP.cast_eq_zero, zero_div, add_zero] at h3 ⊢
  rw [abs_le]
  constructor
  · rw [neg_le_sub_iff_le_add, ← sub_le_iff_le_add, le_div_iff₀ hn', sub_mul, one_div, inv_mul_cancel₀ hn'.ne']
    nlinarith
  · rw [sub_le_iff_le_add, div_le_iff₀ hn', add_mul, one_div, inv_mul_cancel₀ hn'.ne']
    nlinarith

/-- Four increasing densities, target one quarter: the threshold is `3/4` and one entry lies above. -/
example : volumeThreshold ([0, 1/3, 2/3, 1] : List ℚ) (1/4) = 3/4 ∧ Spec.above ([0, 1/3, 2/3, 1] : List ℚ) (3/4) = 1 := by
  have hs : ([0, 1/3, 2/3, 1] : List ℚ).mergeSort (fun x y => decide (x ≤ y)) = [0, 1/3, 2/3, 1] :=
    List.mergeSort_of_pairwise (by norm_num)
  have hp : (1 - 1/4 : ℚ) * 100 / 100 * ((([0, 1/3, 2/3, 1] : List ℚ).length - 1 : ℕ) : ℚ) = 9/4 := by norm_num
  have hf : ⌊(9/4 : ℚ)⌋ = 2 := by norm_num
  have hc : ⌈(9/4 : ℚ)⌉ = 3 := by norm_num
  constructor
  · unfold volumeThreshold percentile
    simp only [hs, hp, hf, hc]
    show (2/3 : ℚ) * (1 - (9/4 - ((2 : ℤ) : ℚ))) + 1 * (9/4 - ((2 : ℤ) : ℚ)) = 3/4
    norm_num
  · norm_num [Spec.above, List.countP_cons]

example := C97_threshold_partial ([1/3, 1, 0, 2/3] : List ℚ) (by simp) (1/4) (by norm_num) (by norm_num)
example : ∃ rho : List ℝ, rho ≠ [] ∧ volumeThreshold rho (1/2) ∉ rho := by
  refine ⟨[0, 1], by simp, ?_⟩
  have hs : ([0, 1] : List ℝ).mergeSort (fun x y => decide (x ≤ y)) = [0, 1] :=
    List.mergeSort_of_pairwise (by norm_num)
  have hp : (1 - 1/2 : ℝ) * 100 / 100 * ((([0, 1] : List ℝ).length - 1 : ℕ) : ℝ) = 1/2 := by norm_num
  have hf : ⌊(1/2 : ℝ)⌋ = 0 := by norm_num
  have hc : ⌈(1/2 : ℝ)⌉ = 1 := by norm_num
  have : volumeThreshold ([0, 1] : List ℝ) (1/2) = 1/2 := by
    unfold volumeThreshold percentile
    simp only [hs, hp, hf, hc]
    show (0 : ℝ) * (1 - (1/2 - ((0 : ℤ) : ℝ))) + 1 * (1/2 - ((0 : ℤ) : ℝ)) = 1/2
    norm_num
  rw [this]
  norm_num
example := C97_volume_fraction_violated 3 (by norm_num) (1/2) (1/5) 10 (by norm_num) (by norm_num)
example := C97_order 10 (1/2) (by norm_num) [0, 1] 0 1 (by simp) (by simp)
example := C97_sharpness 10 (1/2) (1/2) (by norm_num) [0, 1] 0 (by simp)
example := C97_threshold_in_range ([1/3, 1, 0, 2/3] : List ℚ) (by simp) (1/4) (by norm_num) (by norm_num)

end Verif.Props
