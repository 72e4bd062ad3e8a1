import Verif.Props.TimeLoop
import Mathlib.Analysis.Calculus.MeanValue
import Mathlib.Analysis.Calculus.ContDiff.RCLike
import Mathlib.Analysis.Calculus.IteratedDeriv.Lemmas
import Mathlib.Analysis.Calculus.Deriv.Pow
import Mathlib.Analysis.Calculus.Deriv.Inv
import Mathlib.Analysis.SpecialFunctions.Exp
import Mathlib.Analysis.SpecialFunctions.ExpDeriv
import Mathlib.Analysis.Normed.Module.FiniteDimension
import Mathlib.Tactic.FieldSimp
import Mathlib.Tactic.Positivity

/-!
# C150: the explicit integrators converge with their stated order on every smooth problem
-/

namespace Verif.Props

open Verif.Model Verif.Spec Verif.Lemmas Set

section
variable {E : Type*} [NormedAddCommGroup E] [NormedSpace ℝ E]

/-- Taylor's theorem for a function whose derivatives are given one by one. -/
theorem taylor_chain (n : ℕ) : ∀ (D : ℕ → ℝ → E) (a b M : ℝ)
    (_ : ∀ i < n, ∀ s ∈ Icc a b, HasDerivWithinAt (D i) (D (i + 1) s) (Icc a b) s)
    (_ : ∀ s ∈ Icc a b, ‖D n s‖ ≤ M), ∀ t ∈ Icc a b, ∀ s ∈ Icc t b,
    ‖D 0 s - ∑ i ∈ Finset.range n, ((s - t) ^ i / (i.factorial : ℝ)) • D i t‖ ≤
      M * ((s - t) ^ n / (n.factorial : ℝ)) := by
  induction n with
  | zero =>
    intro D a b M _ hM t ht s hs
    simpa using hM s ⟨ht.1.trans hs.1, hs.2⟩
  | succ n ih =>
    intro D a b M hD hM t ht s hs
    have hsub : Icc t b ⊆ Icc a b := Icc_subset_Icc_left ht.1
    have key := image_norm_le_of_norm_deriv_right_le_deriv_boundary' (a := t) (b := b)
      (f := fun s => D 0 s - ∑ i ∈ Finset.range (n + 1), ((s - t) ^ i / (i.factorial : ℝ)) • D i t)
      (f' := fun s => D 1 s - ∑ i ∈ Finset.range n, ((s - t) ^ i / (i.factorial : ℝ)) • D (i + 1) t)
      (B := fun s => M * ((s - t) ^ (n + 1) / ((n + 1).factorial : ℝ)))
      (B' := fun s => M * ((s - t) ^ n / (n.factorial : ℝ))) ?_ ?_ ?_ ?_ ?_ ?_ hs
    · exact key
    · apply ContinuousOn.sub
      · intro x hx
        exact ((hD 0 (by omega) x (hsub hx)).continuousWithinAt).mono hsub
      · fun_prop
    · intro x hx
      apply HasDerivWithinAt.sub
      · refine ((hD 0 (by omega) x (hsub ⟨hx.1, hx.2.le⟩)).mono hsub).mono_of_mem_nhdsWithin ?_
        exact Icc_mem_nhdsGE_of_mem hx
      · have hpoly : HasDerivAt (fun s => ∑ i ∈ Finset.range (n + 1), ((s - t) ^ i / (i.factorial : ℝ)) • D i t)
            (∑ i ∈ Finset.range (n + 1), ((i : ℝ) * (x - t) ^ (i - 1) / (i.factorial : ℝ)) • D i t) x := by
          apply HasDerivAt.fun_sum
          intro i _
          apply HasDerivAt.smul_const
          apply HasDerivAt.div_const
          simpa using ((hasDerivAt_id x).sub_const t).fun_pow i
        refine (hpoly.congr_deriv ?_).hasDerivWithinAt
        rw [Finset.sum_range_succ']
        simp only [Nat.cast_zero, zero_mul, zero_div, zero_smul, add_zero, Nat.add_sub_cancel]
        refine Finset.sum_congr rfl fun i _ => ?_
        congr 1
        rw [Nat.factorial_succ]
        have h1 : ((i : ℝ) + 1) ≠ 0 := by positivity
        have h2 : (i.factorial : ℝ) ≠ 0 := by positivity
        push_cast
        field_simp
    · simp only [sub_self]
      rw [Finset.sum_range_succ']
      simp
    · fun_prop
    · intro x _
      refine HasDerivAt.hasDerivWithinAt ?_
      apply HasDerivAt.const_mul
      have h0 := (((hasDerivAt_id x).sub_const t).fun_pow (n + 1)).div_const ((n + 1).factorial : ℝ)
      simp only [id_eq] at h0
      refine h0.congr_deriv ?_
      rw [Nat.factorial_succ]
      have h1 : ((n : ℝ) + 1) ≠ 0 := by positivity
      have h2 : (n.factorial : ℝ) ≠ 0 := by positivity
      push_cast
      field_simp
    · intro x hx
      exact ih (fun i => D (i + 1)) a b M (fun i hi s hs => hD (i + 1) (by omega) s hs) hM t ht x
        ⟨hx.1, hx.2.le⟩

/-- A quantity depending on the time `t` and the step `h` is of order `h ^ k`, uniformly over the steps
inside `[a, b]`. -/
def Small (a b h0 : ℝ) (k : ℕ) (e : ℝ → ℝ → E) : Prop :=
  ∃ C, 0 ≤ C ∧ ∀ t h, a ≤ t → 0 ≤ h → h ≤ h0 → t + h ≤ b → ‖e t h‖ ≤ C * h ^ k

variable {a b h0 : ℝ} {k : ℕ} {e e' : ℝ → ℝ → E}

omit [NormedSpace ℝ E] in
theorem Small.add (h : Small a b h0 k e) (h' : Small a b h0 k e') :
    Small a b h0 k (fun t h => e t h + e' t h) := by
  obtain ⟨C, hC, hc⟩ := h
  obtain ⟨C', hC', hc'⟩ := h'
  refine ⟨C + C', by positivity, fun t h h1 h2 h3 h4 => ?_⟩
  calc ‖e t h + e' t h‖ ≤ ‖e t h‖ + ‖e' t h‖ := norm_add_le _ _
    _ ≤ C * h ^ k + C' * h ^ k := add_le_add (hc t h h1 h2 h3 h4) (hc' t h h1 h2 h3 h4)
    _ = (C + C') * h ^ k := by ring

theorem Small.const_smul (c : ℝ) (h : Small a b h0 k e) : Small a b h0 k (fun t h => c • e t h) := by
  obtain ⟨C, hC, hc⟩ := h
  refine ⟨|c| * C, by positivity, fun t h h1 h2 h3 h4 => ?_⟩
  rw [norm_smul, Real.norm_eq_abs, mul_assoc]
  exact mul_le_mul_of_nonneg_left (hc t h h1 h2 h3 h4) (abs_nonneg c)

theorem Small.h_smul (h : Small a b h0 k e) : Small a b h0 (k + 1) (fun t h => h • e t h) := by
  obtain ⟨C, hC, hc⟩ := h
  refine ⟨C, by positivity, fun t h h1 h2 h3 h4 => ?_⟩
  rw [norm_smul, Real.norm_eq_abs, abs_of_nonneg h2]
  calc h * ‖e t h‖ ≤ h * (C * h ^ k) := mul_le_mul_of_nonneg_left (hc t h h1 h2 h3 h4) h2
    _ = C * h ^ (k + 1) := by ring

omit [NormedSpace ℝ E] in
theorem Small.of_le {m : ℕ} (hh0 : h0 ≤ 1) (hkm : k ≤ m) (h : Small a b h0 m e) : Small a b h0 k e := by
  obtain ⟨C, hC, hc⟩ := h
  refine ⟨C, hC, fun t h h1 h2 h3 h4 => (hc t h h1 h2 h3 h4).trans ?_⟩
  exact mul_le_mul_of_nonneg_left (pow_le_pow_of_le_one h2 (h3.trans hh0) hkm) hC

theorem Small.map (J : ℝ → ℝ → E →L[ℝ] E) {L : ℝ}
    (hJ : ∀ t h, a ≤ t → 0 ≤ h → h ≤ h0 → t + h ≤ b → ‖J t h‖ ≤ L) (h : Small a b h0 k e) :
    Small a b h0 k (fun t h => J t h (e t h)) := by
  obtain ⟨C, hC, hc⟩ := h
  refine ⟨|L| * C, by positivity, fun t h h1 h2 h3 h4 => ?_⟩
  calc ‖J t h (e t h)‖ ≤ ‖J t h‖ * ‖e t h‖ := (J t h).le_opNorm _
    _ ≤ |L| * (C * h ^ k) := mul_le_mul ((hJ t h h1 h2 h3 h4).trans (le_abs_self L)) (hc t h h1 h2 h3 h4)
        (norm_nonneg _) (abs_nonneg _)
    _ = |L| * C * h ^ k := by ring

omit [NormedSpace ℝ E] in
theorem Small.congr (h : Small a b h0 k e)
    (hc : ∀ t h, a ≤ t → 0 ≤ h → h ≤ h0 → t + h ≤ b → e' t h = e t h) : Small a b h0 k e' := by
  obtain ⟨C, hC, hc'⟩ := h
  exact ⟨C, hC, fun t h h1 h2 h3 h4 => by rw [hc t h h1 h2 h3 h4]; exact hc' t h h1 h2 h3 h4⟩

/-- Taylor remainder of order `n` at the fraction `c` of the step. -/
theorem Small.taylor (n : ℕ) (D : ℕ → ℝ → E) {M : ℝ} {c : ℝ} (hc0 : 0 ≤ c) (hc1 : c ≤ 1) (hM0 : 0 ≤ M)
    (hD : ∀ i < n, ∀ s ∈ Icc a b, HasDerivWithinAt (D i) (D (i + 1) s) (Icc a b) s)
    (hM : ∀ s ∈ Icc a b, ‖D n s‖ ≤ M) :
    Small a b h0 n (fun t h => D 0 (t + c * h) -
      ∑ i ∈ Finset.range n, ((c * h) ^ i / (i.factorial : ℝ)) • D i t) := by
  refine ⟨M, hM0, fun t h h1 h2 h3 h4 => ?_⟩
  have hch : c * h ≤ h := mul_le_of_le_one_left h2 hc1
  have hch0 : 0 ≤ c * h := mul_nonneg hc0 h2
  have := taylor_chain n D a b M hD hM t ⟨h1, by linarith⟩ (t + c * h) ⟨by linarith, by linarith⟩
  simp only [add_sub_cancel_left] at this
  refine this.trans (mul_le_mul_of_nonneg_left ?_ hM0)
  calc (c * h) ^ n / (n.factorial : ℝ) ≤ (c * h) ^ n / 1 := by
        apply div_le_div_of_nonneg_left (by positivity) one_pos
        exact_mod_cast Nat.one_le_iff_ne_zero.2 (Nat.factorial_ne_zero n)
    _ ≤ h ^ n := by rw [div_one]; exact pow_le_pow_left₀ hch0 hch n

omit [NormedSpace ℝ E] in
/-- From the error of one step to the error of a run, for steps of any sizes: the run stays within distance
one of the solution, where the step is stable. -/
theorem history_error (Φ : E → ℝ → ℝ → E) (y : ℝ → E) {R Λ Cl : ℝ} {p : ℕ} (hab : a ≤ b) (hp : 1 ≤ p)
    (hh0 : 0 < h0) (hΛ : 0 ≤ Λ) (hCl : 0 ≤ Cl)
    (hy : ∀ s ∈ Icc a b, ‖y s‖ ≤ R)
    (stab : ∀ u v t h, ‖u‖ ≤ R + 1 → ‖v‖ ≤ R + 1 → a ≤ t → 0 ≤ h → h ≤ h0 → t + h ≤ b →
      ‖Φ u t h - Φ v t h‖ ≤ (1 + h * Λ) * ‖u - v‖)
    (loc : ∀ t h, a ≤ t → 0 ≤ h → h ≤ h0 → t + h ≤ b → ‖Φ (y t) t h - y (t + h)‖ ≤ Cl * h ^ (p + 1)) :
    ∃ C h1, 0 < h1 ∧ ∀ (rows : List (ℕ × ℝ × E)) (hs : List ℝ) (n : ℕ) (H : ℝ),
      IsHistory (fun u t h => .ok (Φ u t h)) (y a) a rows hs n → (∀ x ∈ hs, 0 ≤ x ∧ x ≤ H) → H ≤ h1 →
      (∀ row ∈ rows, row.2.1 ≤ b) → 0 ≤ H → ∀ row ∈ rows, ‖row.2.2 - y row.2.1‖ ≤ C * H ^ p := by
  set C := Real.exp (Λ * (b - a)) * ((b - a) * Cl) with hC
  have hC0 : 0 ≤ C := by have := sub_nonneg.2 hab; positivity
  refine ⟨C, min h0 (min 1 (1 / (C + 1))), by positivity, ?_⟩
  intro rows hs n H hh hx hH hrow hH0
  have hHh0 : H ≤ h0 := hH.trans (min_le_left _ _)
  have hH1 : H ≤ 1 := hH.trans ((min_le_right _ _).trans (min_le_left _ _))
  have hHC : C * H ^ p ≤ 1 := by
    have h1 : H ≤ 1 / (C + 1) := hH.trans ((min_le_right _ _).trans (min_le_right _ _))
    have h2 : H ^ p ≤ H := by simpa using pow_le_pow_of_le_one hH0 hH1 hp
    calc C * H ^ p ≤ C * (1 / (C + 1)) := mul_le_mul_of_nonneg_left (h2.trans h1) hC0
      _ ≤ 1 := by rw [mul_one_div, div_le_one (by positivity)]; linarith
  have main : ∀ k ≤ n, ∃ t s, rows[k]? = some (k, t, s) ∧ a ≤ t ∧ t ≤ b ∧
      ‖s - y t‖ ≤ Real.exp (Λ * (t - a)) * ((t - a) * (Cl * H ^ p)) := by
    intro k
    induction k with
    | zero => intro _; exact ⟨a, y a, hh.first, le_rfl, hab, by simp⟩
    | succ m ih =>
      intro hm
      obtain ⟨t, s, h1, h2, h3, h4⟩ := ih (by omega)
      obtain ⟨s1, t1, s2, hk, g1, g2, g3, g4⟩ := hh.next m (by omega)
      rw [h1] at g1
      simp only [Option.some.injEq, Prod.mk.injEq] at g1
      obtain ⟨-, rfl, rfl⟩ := g1
      simp only [Except.ok.injEq] at g4
      obtain ⟨k0, k1⟩ := hx hk (List.mem_of_getElem? g2)
      have htb : t + hk ≤ b := hrow _ (List.mem_of_getElem? g3)
      refine ⟨t + hk, s2, g3, by linarith, htb, ?_⟩
      have hta : 0 ≤ t - a := by linarith
      have hbnd : Real.exp (Λ * (t - a)) * ((t - a) * (Cl * H ^ p)) ≤ C * H ^ p := by
        rw [hC]
        have e1 : Real.exp (Λ * (t - a)) ≤ Real.exp (Λ * (b - a)) :=
          Real.exp_le_exp.2 (mul_le_mul_of_nonneg_left (by linarith) hΛ)
        have e2 : (t - a) * (Cl * H ^ p) ≤ (b - a) * (Cl * H ^ p) :=
          mul_le_mul_of_nonneg_right (by linarith) (by positivity)
        calc _ ≤ Real.exp (Λ * (b - a)) * ((b - a) * (Cl * H ^ p)) :=
              mul_le_mul e1 e2 (by positivity) (by positivity)
          _ = _ := by ring
      have hs1 : ‖s - y t‖ ≤ 1 := (h4.trans hbnd).trans hHC
      have hyt := hy t ⟨h2, h3⟩
      have hsn : ‖s‖ ≤ R + 1 := by
        calc ‖s‖ = ‖y t + (s - y t)‖ := by rw [add_sub_cancel]
          _ ≤ ‖y t‖ + ‖s - y t‖ := norm_add_le _ _
          _ ≤ R + 1 := add_le_add hyt hs1
      have A := stab s (y t) t hk hsn (by linarith) h2 k0 (k1.trans hHh0) htb
      have B := loc t hk h2 k0 (k1.trans hHh0) htb
      rw [← g4]
      have hexp : 1 + hk * Λ ≤ Real.exp (Λ * hk) := by
        have := Real.add_one_le_exp (Λ * hk); linarith
      have e3 : Cl * hk ^ (p + 1) ≤ hk * (Cl * H ^ p) := by
        have : hk ^ p ≤ H ^ p := pow_le_pow_left₀ k0 k1 p
        calc Cl * hk ^ (p + 1) = hk * (Cl * hk ^ p) := by ring
          _ ≤ _ := mul_le_mul_of_nonneg_left (mul_le_mul_of_nonneg_left this hCl) k0
      have e4 : Real.exp (Λ * (t + hk - a)) = Real.exp (Λ * hk) * Real.exp (Λ * (t - a)) := by
        rw [← Real.exp_add]; congr 1; ring
      have e5 : 1 ≤ Real.exp (Λ * (t + hk - a)) := Real.one_le_exp (mul_nonneg hΛ (by linarith))
      set X := Cl * H ^ p with hX
      have hX0 : 0 ≤ X := by positivity
      calc ‖Φ s t hk - y (t + hk)‖ = ‖(Φ s t hk - Φ (y t) t hk) + (Φ (y t) t hk - y (t + hk))‖ := by
            rw [sub_add_sub_cancel]
        _ ≤ ‖Φ s t hk - Φ (y t) t hk‖ + ‖Φ (y t) t hk - y (t + hk)‖ := norm_add_le _ _
        _ ≤ (1 + hk * Λ) * ‖s - y t‖ + hk * X := add_le_add A (B.trans e3)
        _ ≤ Real.exp (Λ * hk) * (Real.exp (Λ * (t - a)) * ((t - a) * X)) + hk * X := by
            refine add_le_add_left (mul_le_mul hexp h4 (norm_nonneg _) (Real.exp_pos _).le) _
        _ = Real.exp (Λ * (t + hk - a)) * ((t - a) * X) + 1 * (hk * X) := by rw [e4]; ring
        _ ≤ Real.exp (Λ * (t + hk - a)) * ((t - a) * X) + Real.exp (Λ * (t + hk - a)) * (hk * X) := by
            gcongr
        _ = Real.exp (Λ * (t + hk - a)) * ((t + hk - a) * X) := by ring
  intro row hmem
  obtain ⟨k, hk, rfl⟩ := List.mem_iff_getElem.1 hmem
  obtain ⟨t, s, h1, h2, h3, h4⟩ := main k (by have := hh.length; omega)
  rw [List.getElem?_eq_getElem hk, Option.some.injEq] at h1
  rw [h1]
  refine h4.trans ?_
  rw [hC]
  have e1 : Real.exp (Λ * (t - a)) ≤ Real.exp (Λ * (b - a)) :=
    Real.exp_le_exp.2 (mul_le_mul_of_nonneg_left (by linarith) hΛ)
  have e2 : (t - a) * (Cl * H ^ p) ≤ (b - a) * (Cl * H ^ p) :=
    mul_le_mul_of_nonneg_right (by linarith) (by positivity)
  have hta : 0 ≤ t - a := by linarith
  calc _ ≤ Real.exp (Λ * (b - a)) * ((b - a) * (Cl * H ^ p)) :=
        mul_le_mul e1 e2 (by positivity) (by positivity)
    _ = _ := by ring

/-- What the proofs use of a right-hand side near a solution: on the ball of radius `R + 2` it is bounded and
Lipschitz in the state. -/
structure Tube (f : E → ℝ → E) (y : ℝ → E) (a b R F L : ℝ) : Prop where
  inside : ∀ s ∈ Icc a b, ‖y s‖ ≤ R
  bounded : ∀ u s, ‖u‖ ≤ R + 2 → s ∈ Icc a b → ‖f u s‖ ≤ F
  lipschitz : ∀ u v s, ‖u‖ ≤ R + 2 → ‖v‖ ≤ R + 2 → s ∈ Icc a b → ‖f u s - f v s‖ ≤ L * ‖u - v‖
  F_pos : 0 < F
  L_pos : 0 ≤ L

noncomputable section
variable {f : E → ℝ → E} {y : ℝ → E} {R F L : ℝ}

/-- A stage value stays in the larger ball. -/
theorem Tube.stage (hT : Tube f y a b R F L) {u : E} {κ : E} {c h : ℝ} (hu : ‖u‖ ≤ R + 1) (hκ : ‖κ‖ ≤ F)
    (hc0 : 0 ≤ c) (hc1 : c ≤ 1) (hh : 0 ≤ h) (hF : h ≤ 1 / F) : ‖u + (c * h) • κ‖ ≤ R + 2 := by
  have h1 : h * F ≤ 1 := by rwa [le_div_iff₀ hT.F_pos] at hF
  calc ‖u + (c * h) • κ‖ ≤ ‖u‖ + ‖(c * h) • κ‖ := norm_add_le _ _
    _ = ‖u‖ + c * h * ‖κ‖ := by rw [norm_smul, Real.norm_eq_abs, abs_of_nonneg (by positivity)]
    _ ≤ (R + 1) + h * F := by
        refine add_le_add hu (mul_le_mul ?_ hκ (norm_nonneg _) hh)
        exact mul_le_of_le_one_left hh hc1
    _ ≤ R + 2 := by linarith

/-- Stages from two states: the distance grows by at most the factor `1 + c h G`. -/
theorem stage_dist {u v κ κ' : E} {c h G : ℝ} (hc0 : 0 ≤ c) (hc1 : c ≤ 1) (hh : 0 ≤ h) (_ : 0 ≤ G)
    (hκ : ‖κ - κ'‖ ≤ G * ‖u - v‖) : ‖(u + (c * h) • κ) - (v + (c * h) • κ')‖ ≤ (1 + h * G) * ‖u - v‖ := by
  have e : (u + (c * h) • κ) - (v + (c * h) • κ') = (u - v) + (c * h) • (κ - κ') := by
    rw [smul_sub]; abel
  rw [e]
  calc ‖(u - v) + (c * h) • (κ - κ')‖ ≤ ‖u - v‖ + ‖(c * h) • (κ - κ')‖ := norm_add_le _ _
    _ = ‖u - v‖ + c * h * ‖κ - κ'‖ := by rw [norm_smul, Real.norm_eq_abs, abs_of_nonneg (by positivity)]
    _ ≤ ‖u - v‖ + h * (G * ‖u - v‖) := by
        refine add_le_add_right (mul_le_mul ?_ hκ (norm_nonneg _) hh) _
        exact mul_le_of_le_one_left hh hc1
    _ = (1 + h * G) * ‖u - v‖ := by ring

/-- The euler step as a function. -/
def stepE (f : E → ℝ → E) (u : E) (t h : ℝ) : E := u + (1 * h) • f u t

/-- The rk2 step as a function. -/
def stepM (f : E → ℝ → E) (u : E) (t h : ℝ) : E :=
  u + (1 * h) • f (u + (1 / 2 * h) • f u t) (t + 1 / 2 * h)

/-- The second stage of rk4. -/
def kTwo (f : E → ℝ → E) (u : E) (t h : ℝ) : E := f (u + (1 / 2 * h) • f u t) (t + 1 / 2 * h)

/-- The third stage of rk4. -/
def kThree (f : E → ℝ → E) (u : E) (t h : ℝ) : E := f (u + (1 / 2 * h) • kTwo f u t h) (t + 1 / 2 * h)

/-- The fourth stage of rk4. -/
def kFour (f : E → ℝ → E) (u : E) (t h : ℝ) : E := f (u + (1 * h) • kThree f u t h) (t + h)

/-- The rk4 step as a function. -/
def stepR (f : E → ℝ → E) (u : E) (t h : ℝ) : E :=
  u + (h / 6) • (f u t + (2 : ℝ) • kTwo f u t h + (2 : ℝ) • kThree f u t h + kFour f u t h)

theorem step_functions (f : E → ℝ → E) :
    explicitStep .euler f = (fun u t h => .ok (stepE f u t h)) ∧
    explicitStep .rk2 f = (fun u t h => .ok (stepM f u t h)) ∧
    explicitStep .rk4 f = (fun u t h => .ok (stepR f u t h)) := by
  refine ⟨?_, ?_, ?_⟩ <;> funext u t h <;>
    simp [explicitStep, stepE, stepM, stepR, kTwo, kThree, kFour, axpy]

theorem stable_euler (hT : Tube f y a b R F L) : ∀ u v t h, ‖u‖ ≤ R + 1 → ‖v‖ ≤ R + 1 → a ≤ t → 0 ≤ h →
    h ≤ min 1 (1 / F) → t + h ≤ b → ‖stepE f u t h - stepE f v t h‖ ≤ (1 + h * L) * ‖u - v‖ := by
  intro u v t h hu hv h1 h2 h3 h4
  exact stage_dist zero_le_one le_rfl h2 hT.L_pos
    (hT.lipschitz u v t (by linarith) (by linarith) ⟨h1, by linarith⟩)

/-- The second stages of two states. -/
theorem kTwo_dist (hT : Tube f y a b R F L) : ∀ u v t h, ‖u‖ ≤ R + 1 → ‖v‖ ≤ R + 1 → a ≤ t → 0 ≤ h →
    h ≤ min 1 (1 / F) → t + h ≤ b →
    ‖kTwo f u t h‖ ≤ F ∧ ‖kTwo f u t h - kTwo f v t h‖ ≤ L * (1 + L) * ‖u - v‖ := by
  intro u v t h hu hv h1 h2 h3 h4
  have hF : h ≤ 1 / F := h3.trans (min_le_right _ _)
  have hone : h ≤ 1 := h3.trans (min_le_left _ _)
  have hs : t ∈ Icc a b := ⟨h1, by linarith⟩
  have hm : t + 1 / 2 * h ∈ Icc a b := ⟨by linarith, by linarith⟩
  have b1 := hT.stage hu (hT.bounded u t (by linarith) hs) (c := 1 / 2) (by norm_num) (by norm_num) h2 hF
  have b2 := hT.stage hv (hT.bounded v t (by linarith) hs) (c := 1 / 2) (by norm_num) (by norm_num) h2 hF
  refine ⟨hT.bounded _ _ b1 hm, (hT.lipschitz _ _ _ b1 b2 hm).trans ?_⟩
  rw [mul_assoc]
  refine mul_le_mul_of_nonneg_left ?_ hT.L_pos
  refine (stage_dist (G := L) (by norm_num) (by norm_num) h2 hT.L_pos
    (hT.lipschitz u v t (by linarith) (by linarith) hs)).trans ?_
  refine mul_le_mul_of_nonneg_right ?_ (norm_nonneg _)
  have := mul_le_of_le_one_left hT.L_pos hone
  linarith

/-- The third stages of two states. -/
theorem kThree_dist (hT : Tube f y a b R F L) : ∀ u v t h, ‖u‖ ≤ R + 1 → ‖v‖ ≤ R + 1 → a ≤ t → 0 ≤ h →
    h ≤ min 1 (1 / F) → t + h ≤ b →
    ‖kThree f u t h‖ ≤ F ∧ ‖kThree f u t h - kThree f v t h‖ ≤ L * (1 + L * (1 + L)) * ‖u - v‖ := by
  intro u v t h hu hv h1 h2 h3 h4
  have hF : h ≤ 1 / F := h3.trans (min_le_right _ _)
  have hone : h ≤ 1 := h3.trans (min_le_left _ _)
  have hm : t + 1 / 2 * h ∈ Icc a b := ⟨by linarith, by linarith⟩
  have q := kTwo_dist hT u v t h hu hv h1 h2 h3 h4
  have q' := kTwo_dist hT v u t h hv hu h1 h2 h3 h4
  have hL := hT.L_pos
  have b1 := hT.stage hu q.1 (c := 1 / 2) (by norm_num) (by norm_num) h2 hF
  have b2 := hT.stage hv q'.1 (c := 1 / 2) (by norm_num) (by norm_num) h2 hF
  refine ⟨hT.bounded _ _ b1 hm, (hT.lipschitz _ _ _ b1 b2 hm).trans ?_⟩
  rw [mul_assoc L]
  refine mul_le_mul_of_nonneg_left ?_ hT.L_pos
  refine (stage_dist (by norm_num) (by norm_num) h2 (by positivity) q.2).trans ?_
  refine mul_le_mul_of_nonneg_right ?_ (norm_nonneg _)
  have := mul_le_of_le_one_left (show 0 ≤ L * (1 + L) by positivity) hone
  linarith

/-- The fourth stages of two states. -/
theorem kFour_dist (hT : Tube f y a b R F L) : ∀ u v t h, ‖u‖ ≤ R + 1 → ‖v‖ ≤ R + 1 → a ≤ t → 0 ≤ h →
    h ≤ min 1 (1 / F) → t + h ≤ b →
    ‖kFour f u t h - kFour f v t h‖ ≤ L * (1 + L * (1 + L * (1 + L))) * ‖u - v‖ := by
  intro u v t h hu hv h1 h2 h3 h4
  have hF : h ≤ 1 / F := h3.trans (min_le_right _ _)
  have hone : h ≤ 1 := h3.trans (min_le_left _ _)
  have hm : t + h ∈ Icc a b := ⟨by linarith, by linarith⟩
  have q := kThree_dist hT u v t h hu hv h1 h2 h3 h4
  have q' := kThree_dist hT v u t h hv hu h1 h2 h3 h4
  have hL := hT.L_pos
  have b1 := hT.stage hu q.1 (c := 1) (by norm_num) (by norm_num) h2 hF
  have b2 := hT.stage hv q'.1 (c := 1) (by norm_num) (by norm_num) h2 hF
  refine (hT.lipschitz _ _ _ b1 b2 hm).trans ?_
  rw [mul_assoc L]
  refine mul_le_mul_of_nonneg_left ?_ hT.L_pos
  refine (stage_dist (by norm_num) (by norm_num) h2 (by positivity) q.2).trans ?_
  refine mul_le_mul_of_nonneg_right ?_ (norm_nonneg _)
  have := mul_le_of_le_one_left (show 0 ≤ L * (1 + L * (1 + L)) by positivity) hone
  linarith

theorem stable_rk2 (hT : Tube f y a b R F L) : ∀ u v t h, ‖u‖ ≤ R + 1 → ‖v‖ ≤ R + 1 → a ≤ t → 0 ≤ h →
    h ≤ min 1 (1 / F) → t + h ≤ b →
    ‖stepM f u t h - stepM f v t h‖ ≤ (1 + h * (L * (1 + L))) * ‖u - v‖ := by
  intro u v t h hu hv h1 h2 h3 h4
  have hL := hT.L_pos
  exact stage_dist zero_le_one le_rfl h2 (by positivity) (kTwo_dist hT u v t h hu hv h1 h2 h3 h4).2

theorem stable_rk4 (hT : Tube f y a b R F L) : ∀ u v t h, ‖u‖ ≤ R + 1 → ‖v‖ ≤ R + 1 → a ≤ t → 0 ≤ h →
    h ≤ min 1 (1 / F) → t + h ≤ b →
    ‖stepR f u t h - stepR f v t h‖ ≤
      (1 + h * (L + 2 * (L * (1 + L)) + 2 * (L * (1 + L * (1 + L))) + L * (1 + L * (1 + L * (1 + L))))) *
        ‖u - v‖ := by
  intro u v t h hu hv h1 h2 h3 h4
  have hL := hT.L_pos
  have q1 := hT.lipschitz u v t (by linarith) (by linarith) ⟨h1, by linarith⟩
  have q2 := (kTwo_dist hT u v t h hu hv h1 h2 h3 h4).2
  have q3 := (kThree_dist hT u v t h hu hv h1 h2 h3 h4).2
  have q4 := kFour_dist hT u v t h hu hv h1 h2 h3 h4
  have e0 : (h / 6 : ℝ) = 1 / 6 * h := by ring
  unfold stepR
  rw [e0]
  refine stage_dist (by norm_num) (by norm_num) h2 (by positivity) ?_
  have e : (f u t + (2 : ℝ) • kTwo f u t h + (2 : ℝ) • kThree f u t h + kFour f u t h) -
      (f v t + (2 : ℝ) • kTwo f v t h + (2 : ℝ) • kThree f v t h + kFour f v t h) =
      (f u t - f v t) + (2 : ℝ) • (kTwo f u t h - kTwo f v t h) +
        (2 : ℝ) • (kThree f u t h - kThree f v t h) + (kFour f u t h - kFour f v t h) := by module
  rw [e]
  have n2 : ∀ w : E, ‖(2 : ℝ) • w‖ = 2 * ‖w‖ := fun w => by rw [norm_smul]; norm_num
  have s1 := norm_add_le ((f u t - f v t) + (2 : ℝ) • (kTwo f u t h - kTwo f v t h) +
        (2 : ℝ) • (kThree f u t h - kThree f v t h)) (kFour f u t h - kFour f v t h)
  have s2 := norm_add_le ((f u t - f v t) + (2 : ℝ) • (kTwo f u t h - kTwo f v t h))
        ((2 : ℝ) • (kThree f u t h - kThree f v t h))
  have s3 := norm_add_le (f u t - f v t) ((2 : ℝ) • (kTwo f u t h - kTwo f v t h))
  rw [n2] at s2 s3
  nlinarith

end

/-- The successive derivatives of a solution on `[a, b]`: `D 0` is the solution and `D 1` its velocity. -/
structure Derivs (f : E → ℝ → E) (y : ℝ → E) (a b : ℝ) (n : ℕ) (M : ℝ) (D : ℕ → ℝ → E) : Prop where
  zero : D 0 = y
  one : ∀ s ∈ Icc a b, D 1 s = f (y s) s
  deriv : ∀ i < n, ∀ s ∈ Icc a b, HasDerivWithinAt (D i) (D (i + 1) s) (Icc a b) s
  bound : ∀ i ≤ n, ∀ s ∈ Icc a b, ‖D i s‖ ≤ M
  M_pos : 0 ≤ M

section
variable {f : E → ℝ → E} {y : ℝ → E} {R F L M : ℝ} {n : ℕ} {D : ℕ → ℝ → E}

/-- Taylor's theorem for the `j`-th derivative of the solution at the fraction `c` of the step. -/
theorem Derivs.taylor (hD : Derivs f y a b n M D) (j m : ℕ) (hjm : j + m ≤ n) {c : ℝ} (hc0 : 0 ≤ c)
    (hc1 : c ≤ 1) : Small a b h0 m (fun t h => D j (t + c * h) -
      ∑ i ∈ Finset.range m, ((c * h) ^ i / (i.factorial : ℝ)) • D (j + i) t) := by
  have := Small.taylor (a := a) (b := b) (h0 := h0) m (fun i => D (j + i)) hc0 hc1 hD.M_pos
    (fun i hi s hs => hD.deriv (j + i) (by omega) s hs) (fun s hs => hD.bound (j + m) hjm s hs)
  simpa using this

theorem local_euler (hD : Derivs f y a b 2 M D) :
    Small a b h0 2 (fun t h => stepE f (y t) t h - y (t + h)) := by
  refine ((hD.taylor 0 2 (by omega) zero_le_one le_rfl).const_smul (-1)).congr ?_
  intro t h h1 h2 h3 h4
  have e1 := hD.one t ⟨h1, by linarith⟩
  simp only [Finset.sum_range_succ, Finset.sum_range_zero, stepE, ← e1, hD.zero, one_mul, zero_add]
  simp only [Nat.factorial]
  push_cast
  module

theorem local_rk2 (hT : Tube f y a b R F L) (hD : Derivs f y a b 3 M D) (hh : h0 ≤ min 1 (1 / F)) :
    Small a b h0 3 (fun t h => stepM f (y t) t h - y (t + h)) := by
  have hone : h0 ≤ 1 := hh.trans (min_le_left _ _)
  -- the middle state is wrong by the second order, and the slope there by as much
  have d2 : Small a b h0 2 (fun t h => kTwo f (y t) t h - D 1 (t + 1 / 2 * h)) := by
    obtain ⟨C, hC, hc⟩ := hD.taylor (h0 := h0) 0 2 (by omega) (c := 1 / 2) (by norm_num) (by norm_num)
    refine ⟨L * C, mul_nonneg hT.L_pos hC, fun t h h1 h2 h3 h4 => ?_⟩
    have hm : t + 1 / 2 * h ∈ Icc a b := ⟨by linarith, by linarith⟩
    have ht : t ∈ Icc a b := ⟨h1, by linarith⟩
    have hyt := hT.inside t ht
    have hym := hT.inside _ hm
    have hst := hT.stage (u := y t) (by linarith) (hT.bounded (y t) t (by linarith) ht) (c := 1 / 2)
      (by norm_num) (by norm_num) h2 ((h3.trans hh).trans (min_le_right _ _))
    simp only [hD.one _ hm, kTwo]
    refine (hT.lipschitz _ _ _ hst (by linarith) hm).trans ?_
    rw [mul_assoc]
    refine mul_le_mul_of_nonneg_left ?_ hT.L_pos
    have := hc t h h1 h2 h3 h4
    rw [← norm_neg] at this
    refine le_trans (le_of_eq ?_) this
    congr 1
    simp only [Finset.sum_range_succ, Finset.sum_range_zero, hD.zero, ← hD.one t ht, zero_add]
    simp only [Nat.factorial]
    push_cast
    module
  refine ((d2.h_smul).add (((hD.taylor 1 2 (by omega) (c := 1 / 2) (by norm_num) (by norm_num)).h_smul).add
    ((hD.taylor 0 3 (by omega) zero_le_one le_rfl).const_smul (-1)))).congr ?_
  intro t h h1 h2 h3 h4
  have e1 := hD.one t ⟨h1, by linarith⟩
  simp only [Finset.sum_range_succ, Finset.sum_range_zero, stepM, kTwo, ← e1, hD.zero, one_mul, zero_add]
  simp only [Nat.factorial]
  push_cast
  module

/-- The partial derivative of the right-hand side in the state, near the solution. -/
structure Linear (f : E → ℝ → E) (y : ℝ → E) (a b R K : ℝ) (J : ℝ → E →L[ℝ] E) : Prop where
  quad : ∀ u s, ‖u‖ ≤ R + 2 → s ∈ Icc a b → ‖f u s - f (y s) s - J s (u - y s)‖ ≤ K * ‖u - y s‖ ^ 2
  bound : ∀ s ∈ Icc a b, ‖J s‖ ≤ K
  time : ∀ s ∈ Icc a b, ∀ s' ∈ Icc a b, ‖J s - J s'‖ ≤ K * |s - s'|
  K_pos : 0 ≤ K

theorem Small.quad {J : ℝ → E →L[ℝ] E} {K : ℝ} (hJ : Linear f y a b R K J) {τ : ℝ → ℝ → ℝ}
    {u : ℝ → ℝ → E} {m : ℕ}
    (hτ : ∀ t h, a ≤ t → 0 ≤ h → h ≤ h0 → t + h ≤ b → τ t h ∈ Icc a b)
    (hu : ∀ t h, a ≤ t → 0 ≤ h → h ≤ h0 → t + h ≤ b → ‖u t h‖ ≤ R + 2)
    (hs : Small a b h0 m (fun t h => u t h - y (τ t h))) :
    Small a b h0 (2 * m) (fun t h => f (u t h) (τ t h) - f (y (τ t h)) (τ t h) -
      J (τ t h) (u t h - y (τ t h))) := by
  obtain ⟨C, hC, hc⟩ := hs
  have hK := hJ.K_pos
  refine ⟨K * C ^ 2, by positivity, fun t h h1 h2 h3 h4 => ?_⟩
  refine (hJ.quad _ _ (hu t h h1 h2 h3 h4) (hτ t h h1 h2 h3 h4)).trans ?_
  calc K * ‖u t h - y (τ t h)‖ ^ 2 ≤ K * (C * h ^ m) ^ 2 := by
        gcongr
        exact hc t h h1 h2 h3 h4
    _ = K * C ^ 2 * h ^ (2 * m) := by ring

theorem local_rk4 (hT : Tube f y a b R F L) (hD : Derivs f y a b 5 M D) {J : ℝ → E →L[ℝ] E} {K : ℝ}
    (hJ : Linear f y a b R K J) (hh : h0 ≤ min 1 (1 / F)) :
    Small a b h0 5 (fun t h => stepR f (y t) t h - y (t + h)) := by
  have hone : h0 ≤ 1 := hh.trans (min_le_left _ _)
  have hm : ∀ t h, a ≤ t → 0 ≤ h → h ≤ h0 → t + h ≤ b → t + 1 / 2 * h ∈ Icc a b :=
    fun t h h1 h2 h3 h4 => ⟨by linarith, by linarith⟩
  have he : ∀ t h, a ≤ t → 0 ≤ h → h ≤ h0 → t + h ≤ b → t + h ∈ Icc a b :=
    fun t h h1 h2 h3 h4 => ⟨by linarith, by linarith⟩
  have hfr : ∀ t h, a ≤ t → 0 ≤ h → h ≤ h0 → t + h ≤ b → t ∈ Icc a b :=
    fun t h h1 h2 h3 h4 => ⟨by linarith, by linarith⟩
  have hF : ∀ {h : ℝ}, h ≤ h0 → h ≤ 1 / F := fun h3 => (h3.trans hh).trans (min_le_right _ _)
  have hmin : ∀ {h : ℝ}, h ≤ h0 → h ≤ min 1 (1 / F) := fun h3 => h3.trans hh
  have b2 : ∀ t h, a ≤ t → 0 ≤ h → h ≤ h0 → t + h ≤ b → ‖y t + (1 / 2 * h) • f (y t) t‖ ≤ R + 2 := by
    intro t h h1 h2 h3 h4
    have := hT.inside t (hfr t h h1 h2 h3 h4)
    exact hT.stage (by linarith) (hT.bounded _ _ (by linarith) (hfr t h h1 h2 h3 h4)) (by norm_num)
      (by norm_num) h2 (hF h3)
  have b3 : ∀ t h, a ≤ t → 0 ≤ h → h ≤ h0 → t + h ≤ b → ‖y t + (1 / 2 * h) • kTwo f (y t) t h‖ ≤ R + 2 := by
    intro t h h1 h2 h3 h4
    have := hT.inside t (hfr t h h1 h2 h3 h4)
    exact hT.stage (by linarith) (kTwo_dist hT (y t) (y t) t h (by linarith) (by linarith) h1 h2 (hmin h3) h4).1
      (by norm_num) (by norm_num) h2 (hF h3)
  have b4 : ∀ t h, a ≤ t → 0 ≤ h → h ≤ h0 → t + h ≤ b → ‖y t + (1 * h) • kThree f (y t) t h‖ ≤ R + 2 := by
    intro t h h1 h2 h3 h4
    have := hT.inside t (hfr t h h1 h2 h3 h4)
    exact hT.stage (by linarith) (kThree_dist hT (y t) (y t) t h (by linarith) (by linarith) h1 h2 (hmin h3) h4).1
      (by norm_num) (by norm_num) h2 (hF h3)
  have Jm : ∀ t h, a ≤ t → 0 ≤ h → h ≤ h0 → t + h ≤ b → ‖J (t + 1 / 2 * h)‖ ≤ K :=
    fun t h h1 h2 h3 h4 => hJ.bound _ (hm t h h1 h2 h3 h4)
  -- Taylor remainders of the solution and its velocity at the middle and at the end
  have ym3 := hD.taylor (h0 := h0) 0 3 (by omega) (c := 1 / 2) (by norm_num) (by norm_num)
  have ym4 := hD.taylor (h0 := h0) 0 4 (by omega) (c := 1 / 2) (by norm_num) (by norm_num)
  have ye4 := hD.taylor (h0 := h0) 0 4 (by omega) (c := 1) (by norm_num) (by norm_num)
  have ye5 := hD.taylor (h0 := h0) 0 5 (by omega) (c := 1) (by norm_num) (by norm_num)
  have vm2 := hD.taylor (h0 := h0) 1 2 (by omega) (c := 1 / 2) (by norm_num) (by norm_num)
  have vm3 := hD.taylor (h0 := h0) 1 3 (by omega) (c := 1 / 2) (by norm_num) (by norm_num)
  have vm4 := hD.taylor (h0 := h0) 1 4 (by omega) (c := 1 / 2) (by norm_num) (by norm_num)
  have ve4 := hD.taylor (h0 := h0) 1 4 (by omega) (c := 1) (by norm_num) (by norm_num)
  -- errors of the stage states
  have d2 : Small a b h0 2 (fun t h => (y t + (1 / 2 * h) • f (y t) t) - y (t + 1 / 2 * h)) := by
    refine ((hD.taylor 0 2 (by omega) (c := 1 / 2) (by norm_num) (by norm_num)).const_smul (-1)).congr ?_
    intro t h h1 h2 h3 h4
    have e1 := hD.one t (hfr t h h1 h2 h3 h4)
    simp only [Finset.sum_range_succ, Finset.sum_range_zero, ← e1, hD.zero, zero_add]
    simp only [Nat.factorial]
    push_cast
    module
  -- the slope error of the second stage, to first order and beyond
  have q2 := Small.quad hJ hm b2 d2
  have Jd2 := d2.map (fun t h => J (t + 1 / 2 * h)) Jm
  have sum3 : Small a b h0 3 (fun t h => ((y t + (1 / 2 * h) • f (y t) t) - y (t + 1 / 2 * h)) +
      ((y t + (1 / 2 * h) • kTwo f (y t) t h) - y (t + 1 / 2 * h))) := by
    refine (((ym3.const_smul (-2)).add (vm2.h_smul.const_smul (1 / 2))).add
      ((Jd2.h_smul.const_smul (1 / 2)).add ((q2.of_le hone (by omega : 2 ≤ 2 * 2)).h_smul.const_smul (1 / 2)))).congr ?_
    intro t h h1 h2 h3 h4
    have e1 := hD.one t (hfr t h h1 h2 h3 h4)
    have em := hD.one _ (hm t h h1 h2 h3 h4)
    simp only [Finset.sum_range_succ, Finset.sum_range_zero, kTwo, ← e1, ← em, hD.zero, zero_add]
    simp only [Nat.factorial]
    push_cast
    module
  have d3 : Small a b h0 2 (fun t h => (y t + (1 / 2 * h) • kTwo f (y t) t h) - y (t + 1 / 2 * h)) := by
    refine ((sum3.of_le hone (by omega : 2 ≤ 3)).add (d2.const_smul (-1))).congr ?_
    intro t h h1 h2 h3 h4
    module
  have q3 := Small.quad hJ hm b3 d3
  have Jd3 := d3.map (fun t h => J (t + 1 / 2 * h)) Jm
  have Jsum := sum3.map (fun t h => J (t + 1 / 2 * h)) Jm
  have d4 : Small a b h0 3 (fun t h => (y t + (1 * h) • kThree f (y t) t h) - y (t + h)) := by
    refine (((hD.taylor (h0 := h0) 0 3 (by omega) (c := 1) (by norm_num) (by norm_num)).const_smul (-1)).add
      ((vm2.h_smul).add (Jd3.h_smul.add (q3.of_le hone (by omega : 2 ≤ 2 * 2)).h_smul))).congr ?_
    intro t h h1 h2 h3 h4
    have e1 := hD.one t (hfr t h h1 h2 h3 h4)
    have em := hD.one _ (hm t h h1 h2 h3 h4)
    simp only [Finset.sum_range_succ, Finset.sum_range_zero, kThree, ← em, hD.zero, one_mul, zero_add]
    simp only [Nat.factorial]
    push_cast
    module
  have q4 := Small.quad hJ he b4 d4
  have Jd4 : Small a b h0 4 (fun t h => (J (t + h) - J (t + 1 / 2 * h))
      ((y t + (1 * h) • kThree f (y t) t h) - y (t + h))) := by
    obtain ⟨C, hC, hc⟩ := d4
    have hK := hJ.K_pos
    refine ⟨K * C, by positivity, fun t h h1 h2 h3 h4 => ?_⟩
    have ht := hJ.time _ (he t h h1 h2 h3 h4) _ (hm t h h1 h2 h3 h4)
    have hab : |t + h - (t + 1 / 2 * h)| ≤ h := by
      rw [abs_of_nonneg (by linarith)]; linarith
    calc _ ≤ ‖J (t + h) - J (t + 1 / 2 * h)‖ * ‖(y t + (1 * h) • kThree f (y t) t h) - y (t + h)‖ :=
          ContinuousLinearMap.le_opNorm _ _
      _ ≤ (K * h) * (C * h ^ 3) := mul_le_mul (ht.trans (mul_le_mul_of_nonneg_left hab hK))
          (hc t h h1 h2 h3 h4) (norm_nonneg _) (by positivity)
      _ = K * C * h ^ 4 := by ring
  -- the weighted sum of the stage errors cancels to one more order
  have w : Small a b h0 4 (fun t h => (2 : ℝ) • ((y t + (1 / 2 * h) • f (y t) t) - y (t + 1 / 2 * h)) +
      (2 : ℝ) • ((y t + (1 / 2 * h) • kTwo f (y t) t h) - y (t + 1 / 2 * h)) +
      ((y t + (1 * h) • kThree f (y t) t h) - y (t + h))) := by
    refine ((((ym4.const_smul (-4)).add (ye4.const_smul (-1))).add (vm3.h_smul.const_smul 2)).add
      ((Jsum.h_smul).add (((q2.of_le hone (by omega : 3 ≤ 2 * 2)).h_smul).add
        ((q3.of_le hone (by omega : 3 ≤ 2 * 2)).h_smul)))).congr ?_
    intro t h h1 h2 h3 h4
    have e1 := hD.one t (hfr t h h1 h2 h3 h4)
    have em := hD.one _ (hm t h h1 h2 h3 h4)
    have k3 : kThree f (y t) t h = f (y t + (1 / 2 * h) • kTwo f (y t) t h) (t + 1 / 2 * h) := rfl
    have k2 : f (y t + (1 / 2 * h) • D 1 t) (t + 1 / 2 * h) = kTwo f (y t) t h := by rw [e1]; rfl
    simp only [Finset.sum_range_succ, Finset.sum_range_zero, k2, ← k3, ← e1, ← em, hD.zero, one_mul, zero_add, map_add]
    simp only [Nat.factorial]
    push_cast
    module
  have Jw := w.map (fun t h => J (t + 1 / 2 * h)) Jm
  have q2' := (q2.of_le hone (by omega : 4 ≤ 2 * 2))
  have q3' := (q3.of_le hone (by omega : 4 ≤ 2 * 2))
  have q4' := (q4.of_le hone (by omega : 4 ≤ 2 * 3))
  refine ((((vm4.h_smul.const_smul (2 / 3)).add (ve4.h_smul.const_smul (1 / 6))).add (ye5.const_smul (-1))).add
    ((((Jw.add Jd4).add (q2'.const_smul 2)).add ((q3'.const_smul 2).add q4')).h_smul.const_smul (1 / 6))).congr ?_
  intro t h h1 h2 h3 h4
  have e1 := hD.one t (hfr t h h1 h2 h3 h4)
  have em := hD.one _ (hm t h h1 h2 h3 h4)
  have ee := hD.one _ (he t h h1 h2 h3 h4)
  have k4 : f (y t + h • kThree f (y t) t h) (t + h) = kFour f (y t) t h := by rw [kFour, one_mul]
  have k3 : kThree f (y t) t h = f (y t + (1 / 2 * h) • kTwo f (y t) t h) (t + 1 / 2 * h) := rfl
  have k2 : f (y t + (1 / 2 * h) • D 1 t) (t + 1 / 2 * h) = kTwo f (y t) t h := by rw [e1]; rfl
  simp only [Finset.sum_range_succ, Finset.sum_range_zero, stepR, k2, ← k3, k4, ← e1, ← em, ← ee, hD.zero,
    one_mul, zero_add, map_add, map_smul, map_sub, sub_apply]
  simp only [Nat.factorial]
  push_cast
  module

end

end


/-! ### Smooth right-hand sides -/

section
variable {E : Type*} [NormedAddCommGroup E] [NormedSpace ℝ E] {a b : ℝ} {f : E → ℝ → E} {y : ℝ → E}

/-- A solution of a smooth equation is one degree smoother than the equation. -/
theorem solution_smooth (hab : a < b) (n : ℕ) (hf : ContDiff ℝ n (fun p : E × ℝ => f p.1 p.2))
    (hy : ∀ s ∈ Icc a b, HasDerivWithinAt y (f (y s) s) (Icc a b) s) :
    ∀ m ≤ n + 1, ContDiffOn ℝ m y (Icc a b) := by
  have hu : UniqueDiffOn ℝ (Icc a b) := uniqueDiffOn_Icc hab
  intro m
  induction m with
  | zero =>
    intro _
    simp only [Nat.cast_zero, contDiffOn_zero]
    exact fun s hs => (hy s hs).continuousWithinAt
  | succ m ih =>
    intro hm
    have h1 := ih (by omega)
    push_cast
    rw [contDiffOn_succ_iff_derivWithin hu]
    refine ⟨fun s hs => (hy s hs).differentiableWithinAt, ?_, ?_⟩
    · intro h; exact absurd h (by simp)
    · have h2 : ContDiffOn ℝ m (fun s => f (y s) s) (Icc a b) := by
        have h3 : ContDiff ℝ m (fun p : E × ℝ => f p.1 p.2) := hf.of_le (by exact_mod_cast (by omega : m ≤ n))
        exact h3.comp_contDiffOn (h1.prodMk contDiffOn_id)
      exact h2.congr fun s hs => (hy s hs).derivWithin (hu s hs)

theorem solution_derivs (hab : a < b) (n : ℕ) (hf : ContDiff ℝ n (fun p : E × ℝ => f p.1 p.2))
    (hy : ∀ s ∈ Icc a b, HasDerivWithinAt y (f (y s) s) (Icc a b) s) :
    ∃ M D, Derivs f y a b (n + 1) M D := by
  have hu : UniqueDiffOn ℝ (Icc a b) := uniqueDiffOn_Icc hab
  have hsm := solution_smooth hab n hf hy (n + 1) le_rfl
  have hc : ∀ i ≤ n + 1, ∃ C, ∀ s ∈ Icc a b, ‖iteratedDerivWithin i y (Icc a b) s‖ ≤ C := by
    intro i hi
    exact isCompact_Icc.exists_bound_of_continuousOn
      (hsm.continuousOn_iteratedDerivWithin (by exact_mod_cast hi) hu)
  choose! C hC using hc
  refine ⟨∑ i ∈ Finset.range (n + 2), |C i|, fun i => iteratedDerivWithin i y (Icc a b), ?_⟩
  refine ⟨funext fun s => by rw [iteratedDerivWithin_zero], ?_, ?_, ?_, by positivity⟩
  · intro s hs
    rw [iteratedDerivWithin_one]
    exact (hy s hs).derivWithin (hu s hs)
  · intro i hi s hs
    have h1 : DifferentiableOn ℝ (iteratedDerivWithin i y (Icc a b)) (Icc a b) :=
      hsm.differentiableOn_iteratedDerivWithin (by exact_mod_cast hi) hu
    rw [iteratedDerivWithin_succ]
    exact (h1 s hs).hasDerivWithinAt
  · intro i hi s hs
    refine (hC i hi s hs).trans ((le_abs_self _).trans ?_)
    exact Finset.single_le_sum (f := fun i => |C i|) (fun j _ => abs_nonneg _)
      (Finset.mem_range.2 (by omega))

theorem solution_tube [FiniteDimensional ℝ E] (n : ℕ) (hn : 1 ≤ n)
    (hf : ContDiff ℝ n (fun p : E × ℝ => f p.1 p.2))
    (hy : ∀ s ∈ Icc a b, HasDerivWithinAt y (f (y s) s) (Icc a b) s) :
    ∃ R F L, Tube f y a b R F L := by
  have : ProperSpace E := FiniteDimensional.proper ℝ E
  obtain ⟨R, hR⟩ := isCompact_Icc.exists_bound_of_continuousOn
    (f := y) (s := Icc a b) (fun s hs => (hy s hs).continuousWithinAt)
  have hcomp : IsCompact (Metric.closedBall (0 : E) (R + 2) ×ˢ Icc a b) :=
    (isCompact_closedBall _ _).prod isCompact_Icc
  have hconv : Convex ℝ (Metric.closedBall (0 : E) (R + 2) ×ˢ Icc a b) :=
    (convex_closedBall _ _).prod (convex_Icc _ _)
  obtain ⟨F, hF⟩ := hcomp.exists_bound_of_continuousOn (f := fun p : E × ℝ => f p.1 p.2)
    hf.continuous.continuousOn
  obtain ⟨L, hL⟩ := (hf.contDiffOn (s := Metric.closedBall (0 : E) (R + 2) ×ˢ Icc a b)).exists_lipschitzOnWith
    (by exact_mod_cast (by omega : n ≠ 0)) hconv hcomp
  refine ⟨R, |F| + 1, L, hR, ?_, ?_, by positivity, L.2⟩
  · intro u s hu hs
    have := hF (u, s) ⟨by simpa using hu, hs⟩
    exact this.trans ((le_abs_self _).trans (by linarith))
  · intro u v s hu hv hs
    have := hL.dist_le_mul (u, s) ⟨by simpa using hu, hs⟩ (v, s) ⟨by simpa using hv, hs⟩
    simpa [dist_eq_norm] using this

theorem solution_linear [FiniteDimensional ℝ E] (hab : a < b) {R F L : ℝ} (hT : Tube f y a b R F L)
    (hf : ContDiff ℝ 2 (fun p : E × ℝ => f p.1 p.2))
    (hy : ∀ s ∈ Icc a b, HasDerivWithinAt y (f (y s) s) (Icc a b) s) :
    ∃ K J, Linear f y a b R K J := by
  have : ProperSpace E := FiniteDimensional.proper ℝ E
  have hcomp : IsCompact (Metric.closedBall (0 : E) (R + 2) ×ˢ Icc a b) :=
    (isCompact_closedBall _ _).prod isCompact_Icc
  have hconv : Convex ℝ (Metric.closedBall (0 : E) (R + 2) ×ˢ Icc a b) :=
    (convex_closedBall _ _).prod (convex_Icc _ _)
  let G : E × ℝ → E →L[ℝ] E := fun p =>
    (fderiv ℝ (fun p : E × ℝ => f p.1 p.2) p).comp (ContinuousLinearMap.inl ℝ E ℝ)
  have hG : ContDiff ℝ 1 G := by
    have h1 : ContDiff ℝ 1 (fderiv ℝ (fun p : E × ℝ => f p.1 p.2)) := hf.fderiv_right (by norm_num)
    exact h1.clm_comp contDiff_const
  have hyc : ContDiffOn ℝ 1 y (Icc a b) := by
    have := solution_smooth hab 2 (by exact_mod_cast hf) hy 1 (by omega)
    exact_mod_cast this
  obtain ⟨K1, hK1⟩ := (hG.contDiffOn (s := Metric.closedBall (0 : E) (R + 2) ×ˢ Icc a b)).exists_lipschitzOnWith
    one_ne_zero hconv hcomp
  have hJc : ContDiffOn ℝ 1 (fun s => G (y s, s)) (Icc a b) :=
    hG.comp_contDiffOn (hyc.prodMk contDiffOn_id)
  obtain ⟨K2, hK2⟩ := hJc.exists_lipschitzOnWith one_ne_zero (convex_Icc _ _) isCompact_Icc
  obtain ⟨K3, hK3⟩ := isCompact_Icc.exists_bound_of_continuousOn hJc.continuousOn
  refine ⟨K1 + K2 + |K3|, fun s => G (y s, s), ?_, ?_, ?_, by positivity⟩
  · intro u s hu hs
    have hys := hT.inside s hs
    have hd : Differentiable ℝ (fun p : E × ℝ => f p.1 p.2) := hf.differentiable (by norm_num)
    have key := Convex.norm_image_sub_le_of_norm_hasFDerivWithin_le' (𝕜 := ℝ) (f := fun z => f z s)
      (f' := fun z => G (z, s)) (φ := G (y s, s)) (s := segment ℝ (y s) u) (x := y s) (y := u)
      (C := K1 * ‖u - y s‖) ?_ ?_ (convex_segment _ _) (left_mem_segment _ _ _) (right_mem_segment _ _ _)
    · refine key.trans ?_
      rw [mul_assoc, ← sq]
      refine mul_le_mul_of_nonneg_right ?_ (by positivity)
      have := K2.2
      have := abs_nonneg K3
      simp only [NNReal.val_eq_coe] at *
      linarith
    · intro z _
      have h1 := (hd (z, s)).hasFDerivAt
      have h2 := h1.comp z (hasFDerivAt_prodMk_left (𝕜 := ℝ) z s)
      exact h2.hasFDerivWithinAt
    · intro z hz
      have hzb : z ∈ Metric.closedBall (0 : E) (R + 2) := by
        refine (convex_closedBall (0 : E) (R + 2)).segment_subset ?_ ?_ hz
        · simpa using by linarith
        · simpa using hu
      have h1 := hK1.dist_le_mul (z, s) ⟨hzb, hs⟩ (y s, s) ⟨by simpa using by linarith, hs⟩
      have h2 : dist (z, s) (y s, s) = ‖z - y s‖ := by simp [dist_eq_norm]
      rw [h2, dist_eq_norm] at h1
      refine h1.trans (mul_le_mul_of_nonneg_left ?_ K1.2)
      have := norm_sub_le_of_mem_segment (y := z) (x := y s) (z := u) hz
      exact this
  · intro s hs
    have h1 := hK3 s hs
    have := K1.2
    have := K2.2
    simp only [NNReal.val_eq_coe] at *
    linarith [le_abs_self K3]
  · intro s hs s' hs'
    have h1 := hK2.dist_le_mul s hs s' hs'
    rw [dist_eq_norm, Real.dist_eq] at h1
    refine h1.trans (mul_le_mul_of_nonneg_right ?_ (abs_nonneg _))
    have := K1.2
    simp only [NNReal.val_eq_coe] at *
    linarith [abs_nonneg K3]

end

/-- The order documented for each scheme (`time_solver.py:275-277`). -/
def statedOrder : Scheme → Option ℕ
  | .euler => some 1
  | .rk2 => some 2
  | .rk4 => some 4
  | .other _ => none

/-- C150. For each of the three schemes, of stated order `p`: whatever the right-hand side with `p` continuous
derivatives and whatever its solution `y` on `[a, b]`, there are a constant and a step limit such that every run
from `y a` over `[a, b]`, with steps of any positive sizes below the limit (fixed or adapted), is at every row
of its history within `C H ^ p` of the solution at the time of that row, `H` being any bound on the steps
taken. -/
theorem C150_converges_with_stated_order {E : Type*} [NormedAddCommGroup E] [NormedSpace ℝ E]
    [FiniteDimensional ℝ E] (scheme : Scheme) (p : ℕ) (hp : statedOrder scheme = some p) (f : E → ℝ → E)
    (hf : ContDiff ℝ p (fun q : E × ℝ => f q.1 q.2)) (a b : ℝ) (hab : a < b) (y : ℝ → E)
    (hy : ∀ s ∈ Icc a b, HasDerivWithinAt y (f (y s) s) (Icc a b) s) :
    ∃ C h1, 0 < h1 ∧ ∀ (job : TimeJob E ℝ) (fuel : ℕ) (r : LoopState E ℝ) (H : ℝ),
      job.pipe.step = explicitStep scheme f → job.pipe.init = y a → job.cfg.tStart = a → job.cfg.tEnd = b →
      PositiveSteps job → timeRun job fuel = some (.ok r) →
      (∀ x ∈ r.calls.map Prod.snd, x ≤ H) → H ≤ h1 → 0 ≤ H →
      ∀ row ∈ r.hist, ‖row.2.2 - y row.2.1‖ ≤ C * H ^ p := by
  have hp1 : 1 ≤ p := by cases scheme <;> simp [statedOrder] at hp <;> omega
  obtain ⟨R, F, L, hT⟩ := solution_tube p hp1 hf hy
  obtain ⟨M, D, hD⟩ := solution_derivs hab p hf hy
  have hF := hT.F_pos
  have hL := hT.L_pos
  have hh0 : 0 < min 1 (1 / F) := by positivity
  obtain ⟨hE, hM, hR⟩ := step_functions f
  have finish : ∀ (Φ : E → ℝ → ℝ → E) (Λ : ℝ), 0 ≤ Λ → explicitStep scheme f = (fun u t h => .ok (Φ u t h)) →
      (∀ u v t h, ‖u‖ ≤ R + 1 → ‖v‖ ≤ R + 1 → a ≤ t → 0 ≤ h → h ≤ min 1 (1 / F) → t + h ≤ b →
        ‖Φ u t h - Φ v t h‖ ≤ (1 + h * Λ) * ‖u - v‖) →
      Small a b (min 1 (1 / F)) (p + 1) (fun t h => Φ (y t) t h - y (t + h)) →
      ∃ C h1, 0 < h1 ∧ ∀ (job : TimeJob E ℝ) (fuel : ℕ) (r : LoopState E ℝ) (H : ℝ),
      job.pipe.step = explicitStep scheme f → job.pipe.init = y a → job.cfg.tStart = a → job.cfg.tEnd = b →
      PositiveSteps job → timeRun job fuel = some (.ok r) →
      (∀ x ∈ r.calls.map Prod.snd, x ≤ H) → H ≤ h1 → 0 ≤ H →
      ∀ row ∈ r.hist, ‖row.2.2 - y row.2.1‖ ≤ C * H ^ p := by
    intro Φ Λ hΛ hΦ hst hloc
    obtain ⟨Cl, hCl, hl⟩ := hloc
    obtain ⟨C, h1, hpos, hrun⟩ := history_error Φ y hab.le hp1 hh0 hΛ hCl hT.inside hst hl
    refine ⟨C, h1, hpos, ?_⟩
    intro job fuel r H j1 j2 j3 j4 jp jr jx jH jH0
    obtain ⟨g1, _, g3, _, g5, _⟩ := C25_ends_without_overshoot job fuel r jp (by rw [j3, j4]; exact hab.le) jr
    rw [j1, j2, j3, hΦ] at g1
    rw [j4] at g5
    exact hrun r.hist _ _ H g1 (fun x hx => ⟨(g3 x hx).le, jx x hx⟩) jH g5 jH0
  cases scheme with
  | euler =>
    simp only [statedOrder, Option.some.injEq] at hp
    subst hp
    exact finish _ L hL hE (stable_euler hT) (local_euler hD)
  | rk2 =>
    simp only [statedOrder, Option.some.injEq] at hp
    subst hp
    exact finish _ _ (by positivity) hM (stable_rk2 hT) (local_rk2 hT hD le_rfl)
  | rk4 =>
    simp only [statedOrder, Option.some.injEq] at hp
    subst hp
    obtain ⟨K, J, hJ⟩ := solution_linear hab hT (hf.of_le (by norm_num)) hy
    exact finish _ _ (by positivity) hR (stable_rk4 hT) (local_rk4 hT hD hJ le_rfl)
  | other name => simp [statedOrder] at hp

/-- Positive periods and a step that never raises: the loop body never raises. -/
theorem body_returns {S K : Type*} [Field K] [LinearOrder K] (job : TimeJob S K)
    (hstep : ∀ s t h, ∃ z, job.pipe.step s t h = .ok z) (hpr : job.cfg.printEvery ≠ 0)
    (hsv : job.output = true → job.cfg.saveEvery ≠ 0) (hcb : ∀ every ∈ job.callbacks, every ≠ 0)
    (ls : LoopState S K) : ∃ ls', loopBody job ls = .ok ls' := by
  have hf : ∀ (row : Row S K) (cbs : List ℕ) (i : ℕ) (acc : List (ℕ × Row S K)), (∀ e ∈ cbs, e ≠ 0) →
      ∃ q, fireCallbacks row i cbs acc = .ok q := by
    intro row cbs
    induction cbs with
    | nil => intro i acc _; exact ⟨acc, rfl⟩
    | cons e rest ih =>
      intro i acc he
      have h1 := ih (i + 1) acc (fun x hx => he x (by simp [hx]))
      have h2 := ih (i + 1) (acc ++ [(i, row)]) (fun x hx => he x (by simp [hx]))
      simp only [fireCallbacks]
      rw [if_neg (he e (by simp))]
      split
      · exact h2
      · exact h1
  obtain ⟨z, hz⟩ := hstep ls.state ls.t (min ls.dt (job.cfg.tEnd - ls.t))
  unfold loopBody
  simp only [hz, if_neg hpr]
  have hs' : (job.output && job.cfg.saveEvery == 0) = false := by
    cases ho : job.output with
    | false => rfl
    | true => simpa using hsv ho
  rw [hs']
  simp only [Bool.false_eq_true, if_false]
  obtain ⟨q, hq⟩ := hf (ls.step + 1, ls.t + min ls.dt (job.cfg.tEnd - ls.t), z) job.callbacks 0 ls.fired hcb
  rw [hq]
  exact ⟨_, rfl⟩

theorem run_returns {S K : Type*} [Field K] [LinearOrder K] (job : TimeJob S K)
    (hdt : job.cfg.dt ≠ 0)
    (hstep : ∀ s t h, ∃ z, job.pipe.step s t h = .ok z) (hpr : job.cfg.printEvery ≠ 0)
    (hsv : job.output = true → job.cfg.saveEvery ≠ 0) (hcb : ∀ every ∈ job.callbacks, every ≠ 0)
    (fuel : ℕ) (h : (timeRun job fuel).isSome = true) : ∃ r, timeRun job fuel = some (.ok r) := by
  have hl : ∀ (n : ℕ) (ls : LoopState S K), timeLoop job n ls = none ∨ ∃ r, timeLoop job n ls = some (.ok r) := by
    intro n
    induction n with
    | zero =>
      intro ls
      unfold timeLoop
      split
      · exact Or.inl rfl
      · exact Or.inr ⟨ls, rfl⟩
    | succ n ih =>
      intro ls
      unfold timeLoop
      split
      · obtain ⟨ls', h'⟩ := body_returns job hstep hpr hsv hcb ls
        simp only [h']
        exact ih ls'
      · exact Or.inr ⟨ls, rfl⟩
  unfold timeRun at h ⊢
  rw [if_neg hdt] at h ⊢
  rcases hl fuel (startState job) with h' | ⟨r, h'⟩
  · rw [h'] at h; simp at h
  · rw [h']
    have hs' : (job.output && job.cfg.saveEvery == 0) = false := by
      cases ho : job.output with
      | false => rfl
      | true => simpa using hsv ho
    simp only [hs', Bool.false_eq_true, if_false]
    split
    · exact ⟨_, rfl⟩
    · exact ⟨_, rfl⟩

/-- C150, a fixed step size: the run returns, ends within `1e-14 dt` of the end time, and its error at the
end, and at every row, is at most `C dt ^ p`. -/
theorem C150_fixed_step {E : Type*} [NormedAddCommGroup E] [NormedSpace ℝ E]
    [FiniteDimensional ℝ E] (scheme : Scheme) (p : ℕ) (hp : statedOrder scheme = some p) (f : E → ℝ → E)
    (hf : ContDiff ℝ p (fun q : E × ℝ => f q.1 q.2)) (a b : ℝ) (hab : a < b) (y : ℝ → E)
    (hy : ∀ s ∈ Icc a b, HasDerivWithinAt y (f (y s) s) (Icc a b) s) :
    ∃ C h1, 0 < h1 ∧ ∀ (dt : ℝ), 0 < dt → dt ≤ h1 → ∀ (saveEvery printEvery : ℕ) (callbacks : List ℕ)
      (output : Bool), saveEvery ≠ 0 → printEvery ≠ 0 → (∀ every ∈ callbacks, every ≠ 0) →
      let job : TimeJob E ℝ := ⟨⟨dt, b, a, saveEvery, printEvery⟩, ⟨y a, explicitStep scheme f, none⟩, none,
        output, callbacks⟩
      (∃ fuel r, timeRun job fuel = some (.ok r)) ∧
      ∀ fuel r, timeRun job fuel = some (.ok r) →
        b - r.t ≤ 1 / 10 ^ 14 * dt ∧ ‖r.state - y r.t‖ ≤ C * dt ^ p ∧
        ∀ row ∈ r.hist, ‖row.2.2 - y row.2.1‖ ≤ C * dt ^ p := by
  obtain ⟨C, h1, hpos, hrun⟩ := C150_converges_with_stated_order scheme p hp f hf a b hab y hy
  refine ⟨C, h1, hpos, ?_⟩
  intro dt hdt hdt1 se pe cbs out hse hpe hcb job
  have hps : PositiveSteps job := ⟨hdt, fun a ha => by simp [job] at ha⟩
  refine ⟨?_, ?_⟩
  · obtain ⟨fuel, hfuel⟩ := C25_terminates job hdt (fun a ha => by simp [job] at ha)
    refine ⟨fuel, run_returns job hdt.ne' ?_ hpe (fun _ => hse) hcb fuel hfuel⟩
    intro s t h
    obtain ⟨hE, hM, hR⟩ := step_functions f
    change ∃ z, explicitStep scheme f s t h = .ok z
    cases scheme with
    | euler => rw [hE]; exact ⟨_, rfl⟩
    | rk2 => rw [hM]; exact ⟨_, rfl⟩
    | rk4 => rw [hR]; exact ⟨_, rfl⟩
    | other name => simp [statedOrder] at hp
  intro fuel r hr
  have hfix := C25_fixed_step_sizes job fuel r hdt (Or.inl rfl) hr
  have hrows := hrun job fuel r dt rfl rfl rfl rfl hps hr ?_ hdt1 hdt.le
  · obtain ⟨_, g2, _, _, _, g6⟩ := C25_ends_without_overshoot job fuel r hps hab.le hr
    exact ⟨g6, hrows _ (List.mem_of_getElem? g2), hrows⟩
  · intro x hx
    obtain ⟨k, hk⟩ := List.mem_iff_getElem?.1 hx
    exact (hfix k x hk).1
/-- A nonlinear problem that meets the hypotheses: `y' = y²` from 1, solved by `1 / (1 - t)`, up to one half;
rk4 with a step `dt` is within `C dt⁴`. -/
example : ∃ C h1 : ℝ, 0 < h1 ∧ ∀ dt, 0 < dt → dt ≤ h1 → ∃ fuel r,
    timeRun (⟨⟨dt, 1 / 2, 0, 1, 1⟩, ⟨1, explicitStep .rk4 (fun u _ => u ^ 2), none⟩, none, false, []⟩ :
      TimeJob ℝ ℝ) fuel = some (.ok r) ∧ |r.state - 1 / (1 - r.t)| ≤ C * dt ^ 4 := by
  have hsol : ∀ s ∈ Icc (0 : ℝ) (1 / 2), HasDerivWithinAt (fun s : ℝ => 1 / (1 - s)) ((1 / (1 - s)) ^ 2)
      (Icc 0 (1 / 2)) s := by
    intro s hs
    have h1 : (1 - s) ≠ 0 := by have := hs.2; intro h; linarith
    have h2 : HasDerivAt (fun s : ℝ => (1 - s)⁻¹) (-(-1) / (1 - s) ^ 2) s :=
      ((hasDerivAt_id s).const_sub 1).fun_inv h1
    simp only [one_div]
    refine (h2.congr_deriv ?_).hasDerivWithinAt
    field_simp
  obtain ⟨C, h1, hp, h⟩ := C150_fixed_step .rk4 4 rfl (fun (u : ℝ) (_ : ℝ) => u ^ 2) (by fun_prop) 0 (1 / 2)
    (by norm_num) (fun s => 1 / (1 - s)) hsol
  refine ⟨C, h1, hp, fun dt hd hd1 => ?_⟩
  obtain ⟨⟨fuel, r, hr⟩, hb⟩ := h dt hd hd1 1 1 [] false one_ne_zero one_ne_zero (by simp)
  have e0 : (1 : ℝ) / (1 - 0) = 1 := by norm_num
  refine ⟨fuel, r, ?_, ?_⟩
  · rw [← hr]
    simp only [e0]
  · have := (hb fuel r hr).2.1
    simpa [Real.norm_eq_abs] using this

end Verif.Props
