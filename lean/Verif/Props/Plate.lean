import Verif.Props.Laminate
import Verif.Props.FormEnergy

/-!
# C93: stress resultants, energy and equilibrium of plates
-/

namespace Verif.Props

open Verif.Model

/-! ### Thermal resultants -/

theorem plySum_add (F G : Ply → ℝ → ℝ → ℝ) (ps : List Ply) (z : ℝ) :
    plySum F z ps + plySum G z ps = plySum (fun p a b => F p a b + G p a b) z ps := by
  induction ps generalizing z with
  | nil => simp [plySum]
  | cons p ps ih => simp only [plySum, ← ih]; ring

theorem plySum_mul (F : Ply → ℝ → ℝ → ℝ) (c : ℝ) (ps : List Ply) (z : ℝ) :
    plySum F z ps * c = plySum (fun p a b => F p a b * c) z ps := by
  induction ps generalizing z with
  | nil => simp [plySum]
  | cons p ps ih => simp only [plySum, ← ih]; ring

theorem mul_plySum (F : Ply → ℝ → ℝ → ℝ) (c : ℝ) (ps : List Ply) (z : ℝ) :
    c * plySum F z ps = plySum (fun p a b => c * F p a b) z ps := by
  induction ps generalizing z with
  | nil => simp [plySum]
  | cons p ps ih => simp only [plySum, ← ih]; ring

theorem plySum_sub (F G : Ply → ℝ → ℝ → ℝ) (ps : List Ply) (z : ℝ) :
    plySum F z ps - plySum G z ps = plySum (fun p a b => F p a b - G p a b) z ps := by
  induction ps generalizing z with
  | nil => simp [plySum]
  | cons p ps ih => simp only [plySum, ← ih]; ring

theorem integral_cubic (c0 c1 c2 c3 a b : ℝ) :
    ∫ z in a..b, (c0 + c1 * z + c2 * z ^ 2 + c3 * z ^ 3)
      = c0 * (b - a) + c1 * ((b ^ 2 - a ^ 2) / 2) + c2 * ((b ^ 3 - a ^ 3) / 3) + c3 * ((b ^ 4 - a ^ 4) / 4) := by
  have i : ∀ f : ℝ → ℝ, Continuous f → IntervalIntegrable f MeasureTheory.volume a b := fun f hf => hf.intervalIntegrable a b
  rw [intervalIntegral.integral_add (i _ (by fun_prop)) (i _ (by fun_prop)),
    intervalIntegral.integral_add (i _ (by fun_prop)) (i _ (by fun_prop)),
    intervalIntegral.integral_add (i _ (by fun_prop)) (i _ (by fun_prop)),
    intervalIntegral.integral_const, intervalIntegral.integral_const_mul, intervalIntegral.integral_const_mul,
    intervalIntegral.integral_const_mul, integral_id, integral_pow, integral_pow]
  norm_num
  ring

/-- The thermal resultants that the code computes, for plies with expansion `al`. -/
theorem thermal_eq (ps : List Ply) (al : Ply → Arr2 ℝ 2) (dT grad : ℝ) :
    ∃ NT MT, laminateThermalLoads (.each (ps.map Ply.C)) (.each (ps.map al)) (ps.map Ply.theta) (ps.map Ply.t) dT grad = .ok (NT, MT) ∧
      (∀ i j, NT i j = plySum (fun p a b => ddot p.Q (rotateInPlane2 (al p) p.theta) i j
        * (dT * (b - a) + 1 / 2 * grad * (b ^ 2 - a ^ 2))) (-(thickness ps / 2)) ps) ∧
      ∀ i j, MT i j = plySum (fun p a b => ddot p.Q (rotateInPlane2 (al p) p.theta) i j
        * (1 / 2 * dT * (b ^ 2 - a ^ 2) + 1 / 3 * grad * (b ^ 3 - a ^ 3))) (-(thickness ps / 2)) ps := by
  obtain ⟨f, hf⟩ : ∃ f : Ply → Ply, f = fun p => ⟨p.C, al p, p.theta, p.t⟩ := ⟨_, rfl⟩
  have e1 : ps.map Ply.C = (ps.map f).map Ply.C := by simp [hf, Function.comp_def]
  have e2 : ps.map al = (ps.map f).map Ply.G := by simp [hf, Function.comp_def]
  have e3 : ps.map Ply.theta = (ps.map f).map Ply.theta := by simp [hf, Function.comp_def]
  have e4 : ps.map Ply.t = (ps.map f).map Ply.t := by simp [hf, Function.comp_def]
  have e5 : thickness (ps.map f) = thickness ps := by simp [thickness, hf, Function.comp_def]
  have hrun : laminateThermalLoads (.each (ps.map Ply.C)) (.each (ps.map al)) (ps.map Ply.theta) (ps.map Ply.t) dT grad
      = .ok (let ks := (stackRows (-(thickness ps / 2)) (ps.map f)).map fun r => layerThermal r.C r.G r.theta r.lo r.hi dT grad
        (fun i j => (ks.map fun x => x.1 i j).sum, fun i j => (ks.map fun x => x.2 i j).sum)) := by
    rw [e1, e2, e3, e4, ← e5]
    unfold laminateThermalLoads
    simp only [List.length_map, ne_eq, not_true_eq_false, if_false, PerLayer.rows]
    rw [layerRows_eq]
    rfl
  refine ⟨_, _, hrun, fun i j => ?_, fun i j => ?_⟩
  · simp only [List.map_map, Function.comp_def, layerThermal]
    rw [stackRows_sum (fun C G th a b => ddot (rotateInPlane C th) (rotateInPlane2 G th) i j
      * (dT * (b - a) + 1 / 2 * grad * (b ^ 2 - a ^ 2))), plySum_map _ f (fun p => by rw [hf])]
    simp only [hf, Ply.Q]
  · simp only [List.map_map, Function.comp_def, layerThermal]
    rw [stackRows_sum (fun C G th a b => ddot (rotateInPlane C th) (rotateInPlane2 G th) i j
      * (1 / 2 * dT * (b ^ 2 - a ^ 2) + 1 / 3 * grad * (b ^ 3 - a ^ 3))), plySum_map _ f (fun p => by rw [hf])]
    simp only [hf, Ply.Q]

/-- The stress at height `z`: Hooke's law of the ply on the strain that is left after thermal expansion. -/
noncomputable def plyStress (al : Ply → Arr2 ℝ 2) (eps kap : Arr2 ℝ 2) (dT grad : ℝ) (p : Ply) (z : ℝ) : Arr2 ℝ 2 :=
  ddot p.Q fun k l => eps k l + z * kap k l - (dT + grad * z) * rotateInPlane2 (al p) p.theta k l

/-- **C93.** The membrane forces, moments and shear forces of a laminate with thermal loads are the integrals of the ply stresses through the
thickness: `N = ∫ σ dz`, `M = ∫ z σ dz`, with the strain `ε + z κ` less the thermal expansion under `ΔT + ΔT' z`, and
`Q = κ ∫ G γ dz`. -/
theorem C93_resultants (ps : List Ply) (ht : ∀ p ∈ ps, 0 ≤ p.t) (al : Ply → Arr2 ℝ 2) (kappa dT grad : ℝ) (e : PlateStrain ℝ) :
    ∃ L NT MT,
      laminateStiffness (.each (ps.map Ply.C)) (.each (ps.map Ply.G)) (ps.map Ply.theta) (ps.map Ply.t) kappa = .ok L ∧
      laminateThermalLoads (.each (ps.map Ply.C)) (.each (ps.map al)) (ps.map Ply.theta) (ps.map Ply.t) dT grad = .ok (NT, MT) ∧
      (∀ i j, (mindlinResultants e ⟨L.A, L.D, L.Gs, some L.B, some NT, some MT⟩).1 i j
        = thicknessIntegral (fun p z => plyStress al e.eps e.kappa dT grad p z i j) ps) ∧
      (∀ i j, (mindlinResultants e ⟨L.A, L.D, L.Gs, some L.B, some NT, some MT⟩).2.1 i j
        = thicknessIntegral (fun p z => z * plyStress al e.eps e.kappa dT grad p z i j) ps) ∧
      ∀ i, (mindlinResultants e ⟨L.A, L.D, L.Gs, some L.B, some NT, some MT⟩).2.2 i
        = kappa * thicknessIntegral (fun p _ => ∑ j, rotateInPlane2 p.G p.theta i j * e.gamma j) ps := by
  obtain ⟨L, hL, hA, hB, hD, hG⟩ := laminate_eq ps kappa
  obtain ⟨NT, MT, hT, hN, hM⟩ := thermal_eq ps al dT grad
  refine ⟨L, NT, MT, hL, hT, fun i j => ?_, fun i j => ?_, fun i => ?_⟩
  · have hc : ∀ p, (fun z => plyStress al e.eps e.kappa dT grad p z i j) = fun z =>
        (ddot p.Q e.eps i j - dT * ddot p.Q (rotateInPlane2 (al p) p.theta) i j)
        + (ddot p.Q e.kappa i j - grad * ddot p.Q (rotateInPlane2 (al p) p.theta) i j) * z + 0 * z ^ 2 + 0 * z ^ 3 := by
      intro p
      funext z
      simp only [plyStress, ddot, Fin.sum_univ_two]
      ring
    rw [thicknessIntegral_eq _ (fun p => by rw [hc]; fun_prop) ps ht]
    simp only [hc, integral_cubic]
    simp only [mindlinResultants, ddot, Fin.sum_univ_two, hA, hB, hN]
    simp only [plySum_mul, plySum_add, plySum_sub]
    apply plySum_congr
    intro p _ a b
    ring
  · have hc : ∀ p, (fun z => z * plyStress al e.eps e.kappa dT grad p z i j) = fun z =>
        0 + (ddot p.Q e.eps i j - dT * ddot p.Q (rotateInPlane2 (al p) p.theta) i j) * z
        + (ddot p.Q e.kappa i j - grad * ddot p.Q (rotateInPlane2 (al p) p.theta) i j) * z ^ 2 + 0 * z ^ 3 := by
      intro p
      funext z
      simp only [plyStress, ddot, Fin.sum_univ_two]
      ring
    rw [thicknessIntegral_eq _ (fun p => by rw [hc]; fun_prop) ps ht]
    simp only [hc, integral_cubic]
    simp only [mindlinResultants, ddot, Fin.sum_univ_two, hD, hB, hM]
    simp only [plySum_mul, plySum_add, plySum_sub]
    apply plySum_congr
    intro p _ a b
    ring
  · rw [thicknessIntegral_eq _ (fun p => continuous_const) ps ht]
    simp only [mindlinResultants, Fin.sum_univ_two, hG, intervalIntegral.integral_const, smul_eq_mul]
    rw [mul_assoc, mul_assoc, ← mul_add, plySum_mul, plySum_mul, plySum_add]
    congr 1
    apply plySum_congr
    intro p _ a b
    ring

example (e : PlateStrain ℝ) := C93_resultants exPlies exPlies_ok (fun p => p.G) (5 / 6) 100 10 e

/-- **C93.** A laminate symmetric about its midplane has no thermal moment under a uniform change of temperature. -/
theorem C93_symmetric_no_thermal_moment (ps : List Ply) (al : Ply → Arr2 ℝ 2) (hs : ps.reverse = ps) (dT : ℝ) :
    ∃ NT MT, laminateThermalLoads (.each (ps.map Ply.C)) (.each (ps.map al)) (ps.map Ply.theta) (ps.map Ply.t) dT 0 = .ok (NT, MT) ∧
      ∀ i j, MT i j = 0 := by
  obtain ⟨NT, MT, hT, hN, hM⟩ := thermal_eq ps al dT 0
  refine ⟨NT, MT, hT, fun i j => ?_⟩
  have h := centred_reverse (fun p a b => ddot p.Q (rotateInPlane2 (al p) p.theta) i j
      * (1 / 2 * dT * (b ^ 2 - a ^ 2) + 1 / 3 * 0 * (b ^ 3 - a ^ 3))) (fun p a b => -(ddot p.Q (rotateInPlane2 (al p) p.theta) i j
      * (1 / 2 * dT * (b ^ 2 - a ^ 2) + 1 / 3 * 0 * (b ^ 3 - a ^ 3)))) (fun p a b => by ring) ps
  rw [plySum_neg, hs, ← hM] at h
  linarith

/-! ### Energy -/

/-- The energy of the strains `ε + z κ`, ply by ply. -/
theorem plate_energy_eq (ps : List Ply) (ht : ∀ p ∈ ps, 0 ≤ p.t) (L : Laminate) (eps kap : Arr2 ℝ 2)
    (hA : ∀ i j k l, L.A i j k l = plySum (fun p a b => p.Q i j k l * (b - a)) (-(thickness ps / 2)) ps)
    (hB : ∀ i j k l, L.B i j k l = plySum (fun p a b => 1 / 2 * p.Q i j k l * (b ^ 2 - a ^ 2)) (-(thickness ps / 2)) ps)
    (hD : ∀ i j k l, L.D i j k l = plySum (fun p a b => 1 / 3 * p.Q i j k l * (b ^ 3 - a ^ 3)) (-(thickness ps / 2)) ps) :
    ∑ i, ∑ j, (eps i j * ddot L.A eps i j + eps i j * ddot L.B kap i j + kap i j * ddot L.B eps i j + kap i j * ddot L.D kap i j)
      = thicknessIntegral (fun p z => ∑ i, ∑ j, (eps i j + z * kap i j) * ddot p.Q (fun k l => eps k l + z * kap k l) i j) ps := by
  have hc : ∀ p : Ply, (fun z => ∑ i, ∑ j, (eps i j + z * kap i j) * ddot p.Q (fun k l => eps k l + z * kap k l) i j) = fun z =>
      (∑ i, ∑ j, eps i j * ddot p.Q eps i j) + (∑ i, ∑ j, (eps i j * ddot p.Q kap i j + kap i j * ddot p.Q eps i j)) * z
      + (∑ i, ∑ j, kap i j * ddot p.Q kap i j) * z ^ 2 + 0 * z ^ 3 := by
    intro p
    funext z
    simp only [ddot, Fin.sum_univ_two]
    ring
  rw [thicknessIntegral_eq _ (fun p => by rw [hc]; fun_prop) ps ht]
  simp only [hc, integral_cubic]
  simp only [ddot, Fin.sum_univ_two, hA, hB, hD]
  simp only [plySum_mul, mul_plySum, plySum_add]
  apply plySum_congr
  intro p _ a b
  ring

/-- **C93.** The energy of membrane strain and curvature is the integral of the energy of the strain `ε + z κ` in the plies. -/
theorem C93_energy (ps : List Ply) (ht : ∀ p ∈ ps, 0 ≤ p.t) (kappa : ℝ) (eps kap : Arr2 ℝ 2) :
    ∃ L, laminateStiffness (.each (ps.map Ply.C)) (.each (ps.map Ply.G)) (ps.map Ply.theta) (ps.map Ply.t) kappa = .ok L ∧
      ∑ i, ∑ j, (eps i j * ddot L.A eps i j + eps i j * ddot L.B kap i j + kap i j * ddot L.B eps i j + kap i j * ddot L.D kap i j)
        = thicknessIntegral (fun p z => ∑ i, ∑ j, (eps i j + z * kap i j) * ddot p.Q (fun k l => eps k l + z * kap k l) i j) ps := by
  obtain ⟨L, hL, hA, hB, hD, -⟩ := laminate_eq ps kappa
  exact ⟨L, hL, plate_energy_eq ps ht L eps kap hA hB hD⟩

theorem plySum_pos {F : Ply → ℝ → ℝ → ℝ} {ps : List Ply} (ht : ∀ p ∈ ps, 0 ≤ p.t) (h0 : ∀ p ∈ ps, ∀ a, 0 ≤ F p a (a + p.t))
    (h1 : ∀ p ∈ ps, ∀ a, 0 < p.t → 0 < F p a (a + p.t)) (hT : 0 < thickness ps) (z : ℝ) : 0 < plySum F z ps := by
  have hn : ∀ (ps : List Ply), (∀ p ∈ ps, ∀ a, 0 ≤ F p a (a + p.t)) → ∀ z, 0 ≤ plySum F z ps := by
    intro ps
    induction ps with
    | nil => intro _ z; exact le_refl _
    | cons p ps ih =>
      intro h z
      exact add_nonneg (h p List.mem_cons_self z) (ih (fun q hq => h q (List.mem_cons_of_mem _ hq)) _)
  induction ps generalizing z with
  | nil => simp [thickness] at hT
  | cons p ps ih =>
    rw [plySum]
    by_cases hp : 0 < p.t
    · exact add_pos_of_pos_of_nonneg (h1 p List.mem_cons_self z hp) (hn ps (fun q hq => h0 q (List.mem_cons_of_mem _ hq)) _)
    · have hz : p.t = 0 := le_antisymm (not_lt.mp hp) (ht p List.mem_cons_self)
      rw [thickness_cons, hz, zero_add] at hT
      exact add_pos_of_nonneg_of_pos (h0 p List.mem_cons_self z) (ih (fun q hq => ht q (List.mem_cons_of_mem _ hq))
        (fun q hq => h0 q (List.mem_cons_of_mem _ hq)) (fun q hq => h1 q (List.mem_cons_of_mem _ hq)) hT _)

/-- **C93.** A laminate of stable plies is stable: every membrane strain and curvature, not both zero, has positive energy. -/
theorem C93_stable (ps : List Ply) (ht : ∀ p ∈ ps, 0 ≤ p.t) (hT : 0 < thickness ps) (hC : ∀ p ∈ ps, StrictlyStable p.C) (kappa : ℝ) :
    ∃ L, laminateStiffness (.each (ps.map Ply.C)) (.each (ps.map Ply.G)) (ps.map Ply.theta) (ps.map Ply.t) kappa = .ok L ∧
      ∀ eps kap : Arr2 ℝ 2, (∀ i j, eps i j = eps j i) → (∀ i j, kap i j = kap j i) → (eps ≠ 0 ∨ kap ≠ 0) →
        0 < ∑ i, ∑ j, (eps i j * ddot L.A eps i j + eps i j * ddot L.B kap i j + kap i j * ddot L.B eps i j
          + kap i j * ddot L.D kap i j) := by
  obtain ⟨L, hL, hA, hB, hD, -⟩ := laminate_eq ps kappa
  refine ⟨L, hL, fun eps kap he hk hne => ?_⟩
  rw [plate_energy_eq ps ht L eps kap hA hB hD]
  have hcont : ∀ p : Ply, Continuous fun z : ℝ =>
      ∑ i, ∑ j, (eps i j + z * kap i j) * ddot p.Q (fun k l => eps k l + z * kap k l) i j := by
    intro p
    simp only [ddot]
    fun_prop
  rw [thicknessIntegral_eq _ hcont ps ht]
  have hst : ∀ p ∈ ps, StrictlyStable p.Q := fun p hp => rotate_stable (hC p hp) (planeRotation_orthogonal (Real.cos_sq_add_sin_sq p.theta))
  have hpos : ∀ p ∈ ps, ∀ z : ℝ, (fun i j => eps i j + z * kap i j) ≠ (0 : Arr2 ℝ 2) →
      0 < ∑ i, ∑ j, (eps i j + z * kap i j) * ddot p.Q (fun k l => eps k l + z * kap k l) i j := by
    intro p hp z hz
    exact hst p hp (fun i j => eps i j + z * kap i j) (fun i j => by rw [he i j, hk i j]) hz
  have hnn : ∀ p ∈ ps, ∀ z : ℝ,
      0 ≤ ∑ i, ∑ j, (eps i j + z * kap i j) * ddot p.Q (fun k l => eps k l + z * kap k l) i j := by
    intro p hp z
    by_cases hz : (fun i j => eps i j + z * kap i j) = (0 : Arr2 ℝ 2)
    · apply le_of_eq
      symm
      apply Finset.sum_eq_zero
      intro i _
      apply Finset.sum_eq_zero
      intro j _
      have := congrFun (congrFun hz i) j
      simp only [Pi.zero_apply] at this
      rw [this, zero_mul]
    · exact (hpos p hp z hz).le
  apply plySum_pos ht _ _ hT
  · intro p hp a
    exact intervalIntegral.integral_nonneg (by linarith [ht p hp]) fun z _ => hnn p hp z
  · intro p hp a hpt
    apply intervalIntegral.integral_pos (by linarith) (hcont p).continuousOn (fun z _ => hnn p hp z)
    by_cases ha : (fun i j => eps i j + a * kap i j) = (0 : Arr2 ℝ 2)
    · refine ⟨a + p.t, ⟨by linarith, le_refl _⟩, hpos p hp _ ?_⟩
      intro hb
      have hk0 : ∀ i j, kap i j = 0 := by
        intro i j
        have h1 := congrFun (congrFun ha i) j
        have h2 := congrFun (congrFun hb i) j
        simp only [Pi.zero_apply] at h1 h2
        have : p.t * kap i j = 0 := by linear_combination h2 - h1
        exact (mul_eq_zero.mp this).resolve_left hpt.ne'
      have he0 : ∀ i j, eps i j = 0 := by
        intro i j
        have h1 := congrFun (congrFun ha i) j
        simpa [hk0] using h1
      rcases hne with h | h
      · exact h (by funext i j; exact he0 i j)
      · exact h (by funext i j; exact hk0 i j)
    · exact ⟨a, ⟨le_refl _, by linarith⟩, hpos p hp _ ha⟩

example : ∃ L, laminateStiffness (.each (exPlies.map Ply.C)) (.each (exPlies.map Ply.G)) (exPlies.map Ply.theta)
    (exPlies.map Ply.t) (5 / 6) = .ok L ∧
      ∀ eps kap : Arr2 ℝ 2, (∀ i j, eps i j = eps j i) → (∀ i j, kap i j = kap j i) → (eps ≠ 0 ∨ kap ≠ 0) →
        0 < ∑ i, ∑ j, (eps i j * ddot L.A eps i j + eps i j * ddot L.B kap i j + kap i j * ddot L.B eps i j
          + kap i j * ddot L.D kap i j) := by
  apply C93_stable exPlies exPlies_ok
  · norm_num [exPlies, thickness]
  · intro p hp
    simp only [exPlies, List.mem_cons, List.not_mem_nil, or_false] at hp
    rcases hp with rfl | rfl | rfl <;> exact lamina_stable (by norm_num) (by norm_num) (by norm_num) (by norm_num)

/-! ### Strains -/

/-- **C93.** `mindlin_strains`: membrane strain, curvature and shear of a plate; a plate moved and turned as a rigid body (to first order) has
none; an unknown `nonlinear` is refused. -/
theorem C93_strains (g : Fin 3 → Fin 2 → ℝ) (gth : Arr2 ℝ 2) (th : Fin 2 → ℝ) :
    (∃ e, mindlinStrains g gth th "linear" = .ok e ∧
      (∀ i j, e.eps i j = (g i.castSucc j + g j.castSucc i) / 2) ∧ (∀ i j, e.kappa i j = (gth i j + gth j i) / 2) ∧
      (∀ i, e.gamma i = g 2 i + th i) ∧
      ((e.eps = 0 ∧ e.kappa = 0 ∧ e.gamma = 0) ↔
        ∃ spin twist : ℝ, (g 0 0 = 0 ∧ g 0 1 = -spin ∧ g 1 0 = spin ∧ g 1 1 = 0) ∧
          (gth 0 0 = 0 ∧ gth 0 1 = -twist ∧ gth 1 0 = twist ∧ gth 1 1 = 0) ∧ ∀ i, th i = -g 2 i)) ∧
    (∃ e, mindlinStrains g gth th "von_karman" = .ok e ∧
      (∀ i j, e.eps i j = (g i.castSucc j + g j.castSucc i) / 2 + g 2 i * g 2 j / 2) ∧
      (∀ i j, e.kappa i j = (gth i j + gth j i) / 2) ∧ ∀ i, e.gamma i = g 2 i + th i) ∧
    ∀ nl, nl ≠ "linear" → nl ≠ "von_karman" → mindlinStrains g gth th nl = .error .valueError := by
  refine ⟨⟨_, rfl, fun i j => by simp only; ring, fun i j => by simp only; ring, fun i => rfl, ?_⟩,
    ⟨_, rfl, fun i j => by simp only; ring, fun i j => by simp only; ring, fun i => rfl⟩, ?_⟩
  · constructor
    · rintro ⟨h1, h2, h3⟩
      have a := congrFun (congrFun h1 0) 0
      have b := congrFun (congrFun h1 0) 1
      have c := congrFun (congrFun h1 1) 1
      have a' := congrFun (congrFun h2 0) 0
      have b' := congrFun (congrFun h2 0) 1
      have c' := congrFun (congrFun h2 1) 1
      simp at a b c a' b' c'
      refine ⟨g 1 0, gth 1 0, ⟨by linarith, by linarith, rfl, by linarith⟩, ⟨by linarith, by linarith, rfl, by linarith⟩, fun i => ?_⟩
      have := congrFun h3 i
      simp at this
      linarith
    · rintro ⟨s, t, ⟨a, b, c, d⟩, ⟨a', b', c', d'⟩, h⟩
      refine ⟨?_, ?_, ?_⟩
      · funext i j
        fin_cases i <;> fin_cases j <;> simp [a, b, c, d]
      · funext i j
        fin_cases i <;> fin_cases j <;> simp [a', b', c', d']
      · funext i
        simp [h i]
  · intro nl h1 h2
    unfold mindlinStrains
    simp only [h1, h2, if_false, ne_eq, not_false_eq_true, if_true]
    rfl

/-! ### Equilibrium -/

/-- The membrane strain of the gradients of the displacement, with the nonlinear term if `vk`. -/
noncomputable def membraneStrain (vk : Bool) (g : ℕ → ℕ → ℝ) : Arr2 ℝ 2 := fun i j =>
  (g i j + g j i) / 2 + if vk then g 2 i * g 2 j / 2 else 0

/-- Energy per area of a plate: membrane, coupling and bending energy less the work of the thermal resultants, and shear energy. -/
noncomputable def plateEnergy (p : PlateData ℝ) (eps kap : Arr2 ℝ 2) (gam : Fin 2 → ℝ) : ℝ :=
  1 / 2 * ∑ i, ∑ j, eps i j * ddot p.A eps i j + ∑ i, ∑ j, eps i j * ddot (p.B.getD 0) kap i j
    + 1 / 2 * ∑ i, ∑ j, kap i j * ddot p.D kap i j
    - ∑ i, ∑ j, p.NT.getD 0 i j * eps i j - ∑ i, ∑ j, p.MT.getD 0 i j * kap i j
    + 1 / 2 * ∑ i, ∑ j, gam i * (p.Gs i j * gam j)

/-- The same from the values and gradients of displacement and rotation. -/
noncomputable def plateDensity (p : PlateData ℝ) (vk : Bool) (vals : List (List ℝ)) (grads : List (List (List ℝ))) (_ _ : List ℝ) : ℝ :=
  let gu : ℕ → ℕ → ℝ := fun c k => ((grads.getD 0 []).getD c []).getD k 0
  let gt : ℕ → ℕ → ℝ := fun c k => ((grads.getD 1 []).getD c []).getD k 0
  let th : ℕ → ℝ := fun c => (vals.getD 1 []).getD c 0
  plateEnergy p (membraneStrain vk gu) (fun i j => (gt i j + gt j i) / 2) fun i => gu 2 i + th i

/-- Symmetric stiffnesses and thermal resultants. -/
structure SymmetricPlate (p : PlateData ℝ) : Prop where
  A : StiffnessSymmetric p.A
  B : StiffnessSymmetric (p.B.getD 0)
  D : StiffnessSymmetric p.D
  Gs : ∀ i j, p.Gs i j = p.Gs j i
  NT : ∀ i j, p.NT.getD 0 i j = p.NT.getD 0 j i
  MT : ∀ i j, p.MT.getD 0 i j = p.MT.getD 0 j i

theorem ddot_zero {d : ℕ} (e : Arr2 ℝ d) (i j : Fin d) : ddot (0 : Arr4 ℝ d) e i j = 0 := by simp [ddot]

theorem resultants_eq (e : PlateStrain ℝ) (p : PlateData ℝ) :
    (∀ i j, (mindlinResultants e p).1 i j = ddot p.A e.eps i j + ddot (p.B.getD 0) e.kappa i j - p.NT.getD 0 i j) ∧
    (∀ i j, (mindlinResultants e p).2.1 i j = ddot p.D e.kappa i j + ddot (p.B.getD 0) e.eps i j - p.MT.getD 0 i j) ∧
    ∀ i, (mindlinResultants e p).2.2 i = ∑ j, p.Gs i j * e.gamma j := by
  obtain ⟨A, D, G, B, N, M⟩ := p
  refine ⟨fun i j => ?_, fun i j => ?_, fun i => rfl⟩ <;>
    cases B <;> cases N <;> cases M <;> simp [mindlinResultants, ddot_zero]

theorem quad_deriv {d : ℕ} (C : Arr4 ℝ d) (e f : ℝ → Arr2 ℝ d) (e' f' : Arr2 ℝ d)
    (he : ∀ i j, HasDerivAt (fun t => e t i j) (e' i j) 0) (hf : ∀ i j, HasDerivAt (fun t => f t i j) (f' i j) 0) :
    HasDerivAt (fun t => ∑ i, ∑ j, e t i j * ddot C (f t) i j)
      (∑ i, ∑ j, (e' i j * ddot C (f 0) i j + e 0 i j * ddot C f' i j)) 0 := by
  apply HasDerivAt.fun_sum
  intro i _
  apply HasDerivAt.fun_sum
  intro j _
  apply (he i j).fun_mul
  unfold ddot
  apply HasDerivAt.fun_sum
  intro k _
  apply HasDerivAt.fun_sum
  intro l _
  exact (hf k l).const_mul _

theorem major_swap {d : ℕ} {C : Arr4 ℝ d} (h : StiffnessSymmetric C) (e f : Arr2 ℝ d) :
    ∑ i, ∑ j, e i j * ddot C f i j = ∑ i, ∑ j, f i j * ddot C e i j := by
  simp only [ddot, Finset.mul_sum]
  have : ∑ i, ∑ j, ∑ k, ∑ l, e i j * (C i j k l * f k l) = ∑ k, ∑ l, ∑ i, ∑ j, e i j * (C i j k l * f k l) := by
    have h1 : ∀ i, ∑ j, ∑ k, ∑ l, e i j * (C i j k l * f k l) = ∑ k, ∑ l, ∑ j, e i j * (C i j k l * f k l) := by
      intro i
      rw [Finset.sum_comm]
      exact Finset.sum_congr rfl fun k _ => Finset.sum_comm
    simp only [h1]
    rw [Finset.sum_comm]
    exact Finset.sum_congr rfl fun k _ => Finset.sum_comm
  rw [this]
  refine Finset.sum_congr rfl fun k _ => Finset.sum_congr rfl fun l _ => Finset.sum_congr rfl fun i _ =>
    Finset.sum_congr rfl fun j _ => ?_
  rw [(h i j k l).2.2]
  ring

theorem line_deriv (a b : ℝ) : HasDerivAt (fun t : ℝ => a + t * b) b 0 := by
  simpa using ((hasDerivAt_id (0 : ℝ)).mul_const b).const_add a

theorem ddot_symm {d : ℕ} {C : Arr4 ℝ d} (h : StiffnessSymmetric C) (e : Arr2 ℝ d) (i j : Fin d) : ddot C e i j = ddot C e j i := by
  unfold ddot
  exact Finset.sum_congr rfl fun k _ => Finset.sum_congr rfl fun l _ => by rw [(h i j k l).1]

theorem valArr_two {K : Type*} (V : ℕ → ℕ → K) : valArr [3, 2] V = [[V 0 0, V 0 1, V 0 2], [V 1 0, V 1 1]] := by
  simp [valArr, List.range_succ]

theorem gradArr_two {K : Type*} (G : ℕ → ℕ → ℕ → K) : gradArr [3, 2] 2 G
    = [[[G 0 0 0, G 0 0 1], [G 0 1 0, G 0 1 1], [G 0 2 0, G 0 2 1]], [[G 1 0 0, G 1 0 1], [G 1 1 0, G 1 1 1]]] := by
  simp [gradArr, matOf, List.range_succ]

theorem plateDensity_eq (p : PlateData ℝ) (vk : Bool) (V : ℕ → ℕ → ℝ) (F : ℕ → ℕ → ℕ → ℝ) (x iv : List ℝ) :
    plateDensity p vk (valArr [3, 2] V) (gradArr [3, 2] 2 F) x iv
      = plateEnergy p (membraneStrain vk (F 0)) (fun i j => (F 1 i j + F 1 j i) / 2) fun i => F 0 2 i + V 1 i := by
  unfold plateDensity
  rw [valArr_two, gradArr_two]
  congr 1

theorem plateEnergy_deriv (p : PlateData ℝ) (hp : SymmetricPlate p) (e k : ℝ → Arr2 ℝ 2) (g : ℝ → Fin 2 → ℝ) (e' k' : Arr2 ℝ 2)
    (g' : Fin 2 → ℝ) (he : ∀ i j, HasDerivAt (fun t => e t i j) (e' i j) 0) (hk : ∀ i j, HasDerivAt (fun t => k t i j) (k' i j) 0)
    (hg : ∀ i, HasDerivAt (fun t => g t i) (g' i) 0) :
    HasDerivAt (fun t => plateEnergy p (e t) (k t) (g t))
      (∑ i, ∑ j, e' i j * (ddot p.A (e 0) i j + ddot (p.B.getD 0) (k 0) i j - p.NT.getD 0 i j)
        + ∑ i, ∑ j, k' i j * (ddot p.D (k 0) i j + ddot (p.B.getD 0) (e 0) i j - p.MT.getD 0 i j)
        + ∑ i, g' i * ∑ j, p.Gs i j * g 0 j) 0 := by
  have h1 := (quad_deriv p.A e e e' e' he he).const_mul (1 / 2)
  have h2 := quad_deriv (p.B.getD 0) e k e' k' he hk
  have h3 := (quad_deriv p.D k k k' k' hk hk).const_mul (1 / 2)
  have h4 : HasDerivAt (fun t => ∑ i, ∑ j, p.NT.getD 0 i j * e t i j) (∑ i, ∑ j, p.NT.getD 0 i j * e' i j) 0 :=
    HasDerivAt.fun_sum fun i _ => HasDerivAt.fun_sum fun j _ => (he i j).const_mul _
  have h5 : HasDerivAt (fun t => ∑ i, ∑ j, p.MT.getD 0 i j * k t i j) (∑ i, ∑ j, p.MT.getD 0 i j * k' i j) 0 :=
    HasDerivAt.fun_sum fun i _ => HasDerivAt.fun_sum fun j _ => (hk i j).const_mul _
  have h6 : HasDerivAt (fun t => 1 / 2 * ∑ i, ∑ j, g t i * (p.Gs i j * g t j))
      (1 / 2 * ∑ i, ∑ j, (g' i * (p.Gs i j * g 0 j) + g 0 i * (p.Gs i j * g' j))) 0 :=
    (HasDerivAt.fun_sum fun i _ => HasDerivAt.fun_sum fun j _ => (hg i).fun_mul ((hg j).const_mul _)).const_mul _
  refine (((((h1.fun_add h2).fun_add h3).fun_sub h4).fun_sub h5).fun_add h6).congr_deriv ?_
  simp only [Finset.sum_add_distrib, mul_add, mul_sub, Finset.sum_sub_distrib]
  rw [major_swap hp.A (e 0) e', major_swap hp.D (k 0) k', major_swap hp.B (e 0) k']
  have hG : ∑ i, ∑ j, g 0 i * (p.Gs i j * g' j) = ∑ i, ∑ j, g' i * (p.Gs i j * g 0 j) := by
    simp only [Fin.sum_univ_two, hp.Gs 1 0]
    ring
  have hN : ∑ i, ∑ j, p.NT.getD 0 i j * e' i j = ∑ i, ∑ j, e' i j * p.NT.getD 0 i j := by
    simp only [mul_comm]
  have hM : ∑ i, ∑ j, p.MT.getD 0 i j * k' i j = ∑ i, ∑ j, k' i j * p.MT.getD 0 i j := by
    simp only [mul_comm]
  have hQ : ∑ i, g' i * ∑ j, p.Gs i j * g 0 j = ∑ i, ∑ j, g' i * (p.Gs i j * g 0 j) := by
    simp only [Finset.mul_sum]
  rw [hG, hN, hM, hQ]
  ring

/-- The name of the strain measure. -/
def strainMeasure (vk : Bool) : String := if vk then "von_karman" else "linear"

/-- **C93.** The weak form of a plate is the derivative of the plate energy, linear and von Kármán, with coupling and thermal
resultants. -/
theorem C93_weak_form_is_the_energy_derivative (p : PlateData ℝ) (hp : SymmetricPlate p) (vk : Bool) (wf : WeakForm ℝ)
    (hwf : ∀ v g x iv, mindlinWeakForm p (strainMeasure vk) v g = .ok (wf v g x iv)) :
    IsFormGradientOf [3, 2] 2 (plateDensity p vk) wf := by
  intro x iv V W F G
  simp only [plateDensity_eq]
  obtain ⟨e, he⟩ : ∃ e : ℝ → Arr2 ℝ 2, e = fun t => membraneStrain vk fun c k => F 0 c k + t * G 0 c k := ⟨_, rfl⟩
  obtain ⟨e', he'⟩ : ∃ e' : Arr2 ℝ 2, e' = fun (i j : Fin 2) => (G 0 i j + G 0 j i) / 2
      + if vk then (G 0 2 i * F 0 2 j + F 0 2 i * G 0 2 j) / 2 else 0 := ⟨_, rfl⟩
  have hd := plateEnergy_deriv p hp e (fun t i j => (F 1 i j + t * G 1 i j + (F 1 j i + t * G 1 j i)) / 2)
    (fun t i => F 0 2 i + t * G 0 2 i + (V 1 i + t * W 1 i)) e' (fun i j => (G 1 i j + G 1 j i) / 2) (fun i => G 0 2 i + W 1 i)
    (by
      intro i j
      rw [he, he']
      unfold membraneStrain
      apply HasDerivAt.fun_add
      · exact ((line_deriv _ _).fun_add (line_deriv _ _)).div_const _
      · cases vk
        · simpa using hasDerivAt_const (0 : ℝ) (0 : ℝ)
        · have := ((line_deriv (F 0 2 i) (G 0 2 i)).fun_mul (line_deriv (F 0 2 j) (G 0 2 j))).div_const 2
          simpa using this)
    (fun i j => ((line_deriv _ _).fun_add (line_deriv _ _)).div_const _)
    (fun i => (line_deriv _ _).fun_add (line_deriv _ _))
  have hfun : (fun t => plateEnergy p (membraneStrain vk fun c k => F 0 c k + t * G 0 c k)
      (fun (i j : Fin 2) => (F 1 i j + t * G 1 i j + (F 1 j i + t * G 1 j i)) / 2) fun (i : Fin 2) => F 0 2 i + t * G 0 2 i + (V 1 i + t * W 1 i))
      = fun t => plateEnergy p (e t) (fun (i j : Fin 2) => (F 1 i j + t * G 1 i j + (F 1 j i + t * G 1 j i)) / 2)
        fun (i : Fin 2) => F 0 2 i + t * G 0 2 i + (V 1 i + t * W 1 i) := by rw [he]
  rw [hfun]
  refine hd.congr_deriv ?_
  have hw := hwf (valArr [3, 2] V) (gradArr [3, 2] 2 F) x iv
  rw [valArr_two, gradArr_two] at hw ⊢
  have hs : ∃ s, mindlinStrains (fun i j => F 0 i j) (fun i j => F 1 i j) (fun i => V 1 i) (strainMeasure vk) = .ok s ∧
      s.eps = e 0 ∧ (s.kappa = fun (i j : Fin 2) => (F 1 i j + F 1 j i) / 2) ∧ s.gamma = fun (i : Fin 2) => F 0 2 i + V 1 i := by
    rw [he]
    cases vk
    · refine ⟨_, rfl, ?_, ?_, ?_⟩
      · funext i j
        simp [membraneStrain]
        ring
      · funext i j
        simp
        ring
      · funext i
        simp
    · refine ⟨_, rfl, ?_, ?_, ?_⟩
      · funext i j
        simp [membraneStrain]
        ring
      · funext i j
        simp
        ring
      · funext i
        simp
  obtain ⟨s, hs1, hs2, hs3, hs4⟩ := hs
  obtain ⟨rN, rM, rQ⟩ := resultants_eq s p
  have hout : mindlinWeakForm p (strainMeasure vk) [[V 0 0, V 0 1, V 0 2], [V 1 0, V 1 1]]
      [[[F 0 0 0, F 0 0 1], [F 0 1 0, F 0 1 1], [F 0 2 0, F 0 2 1]], [[F 1 0 0, F 1 0 1], [F 1 1 0, F 1 1 1]]]
      = .ok (let r := mindlinResultants s p
        let q : Fin 2 → ℝ := if strainMeasure vk = "von_karman" then fun i => r.2.2 i + ∑ j, r.1 i j * F 0 2 j else r.2.2
        ([[0, 0, 0], [r.2.2 0, r.2.2 1]],
          [[[r.1 0 0, r.1 0 1], [r.1 1 0, r.1 1 1], [q 0, q 1]],
            [[r.2.1 0 0, r.2.1 0 1], [r.2.1 1 0, r.2.1 1 1]]])) := by
    have e1 : (fun (i : Fin 3) (j : Fin 2) => ((([[[F 0 0 0, F 0 0 1], [F 0 1 0, F 0 1 1], [F 0 2 0, F 0 2 1]],
        [[F 1 0 0, F 1 0 1], [F 1 1 0, F 1 1 1]]] : List (List (List ℝ))).getD 0 []).getD i []).getD j 0) = fun (i : Fin 3) (j : Fin 2) => F 0 i j := by
      funext i j
      fin_cases i <;> fin_cases j <;> rfl
    have e2 : (fun (i : Fin 2) (j : Fin 2) => ((([[[F 0 0 0, F 0 0 1], [F 0 1 0, F 0 1 1], [F 0 2 0, F 0 2 1]],
        [[F 1 0 0, F 1 0 1], [F 1 1 0, F 1 1 1]]] : List (List (List ℝ))).getD 1 []).getD i []).getD j 0) = fun (i j : Fin 2) => F 1 i j := by
      funext i j
      fin_cases i <;> fin_cases j <;> rfl
    have e3 : (fun (i : Fin 2) => (([[V 0 0, V 0 1, V 0 2], [V 1 0, V 1 1]] : List (List ℝ)).getD 1 []).getD i 0) = fun (i : Fin 2) => V 1 i := by
      funext i
      fin_cases i <;> rfl
    unfold mindlinWeakForm
    rw [e1, e2, e3]
    dsimp only
    rw [hs1]
    rfl
  rw [hout] at hw
  obtain ⟨N, hN⟩ : ∃ N, N = (mindlinResultants s p).1 := ⟨_, rfl⟩
  obtain ⟨M, hM⟩ : ∃ M, M = (mindlinResultants s p).2.1 := ⟨_, rfl⟩
  obtain ⟨Q, hQ⟩ : ∃ Q, Q = (mindlinResultants s p).2.2 := ⟨_, rfl⟩
  have hNs : N 1 0 = N 0 1 := by
    rw [hN, rN, rN, ddot_symm hp.A, ddot_symm hp.B, hp.NT]
  have hMs : M 1 0 = M 0 1 := by
    rw [hM, rM, rM, ddot_symm hp.D, ddot_symm hp.B, hp.MT]
  simp only [← hN, ← hM, ← hQ] at hw
  injection hw with hw
  rw [← hw]
  have g0 : (fun i : Fin 2 => F 0 2 i + 0 * G 0 2 i + (V 1 i + 0 * W 1 i)) = s.gamma := by
    rw [hs4]; funext i; ring
  have k0 : (fun i j : Fin 2 => (F 1 i j + 0 * G 1 i j + (F 1 j i + 0 * G 1 j i)) / 2) = s.kappa := by
    rw [hs3]; funext i j; ring
  have t1 : ∀ i j, ddot p.A (e 0) i j + ddot (p.B.getD 0) s.kappa i j - p.NT.getD 0 i j = N i j := by
    intro i j; rw [hN, rN, hs2]
  have t2 : ∀ i j, ddot p.D s.kappa i j + ddot (p.B.getD 0) (e 0) i j - p.MT.getD 0 i j = M i j := by
    intro i j; rw [hM, rM, hs2]
  have t3 : ∀ i : Fin 2, ∑ j : Fin 2, p.Gs i j * (F 0 2 j + 0 * G 0 2 j + (V 1 j + 0 * W 1 j)) = Q i := by
    intro i; rw [hQ, rQ, ← g0]
  simp only [k0, t1, t2, t3, he']
  clear hN hM hQ rN rM rQ t1 t2 t3 g0 k0 hs2 hs3 hs4 hs1 hd hwf hw hout he'
  cases vk
  · simp [strainMeasure, Finset.sum_range_succ, Fin.sum_univ_two, hNs, hMs]
    ring
  · simp [strainMeasure, Finset.sum_range_succ, Fin.sum_univ_two, hNs, hMs]
    ring

/-- **C93.** Equilibrium of plates: in every direction the derivative of the total potential (plate energy and dead boundary loads) is the
inner product with the assembled residual. -/
theorem C93_plate_residual (d : Discretization ℝ (List (QPoint ℝ)) (List (QPoint ℝ))) (h : DiscOK d) (hv : d.p.vars.map Var.vec = [3, 2])
    (p : PlateData ℝ) (hp : SymmetricPlate p) (vk : Bool) (wf : WeakForm ℝ)
    (hwf : ∀ v g x iv, mindlinWeakForm p (strainMeasure vk) v g = .ok (wf v g x iv)) (sf : ℕ → SurfaceForm ℝ) (hs : DeadLoads sf)
    (hJ : SharedWeights d) (hk : FormKernels d 2 wf sf) (u w : List ℝ) (hlen : u.length = w.length) :
    HasDerivAt (fun t => potential d 2 (plateDensity p vk) sf (along u w t)) (Spec.inner d.p.n (d.residualAt u) w) 0 :=
  C84_residual_is_the_potential_gradient d h 2 _ wf sf (by
    rw [hv]
    exact C93_weak_form_is_the_energy_derivative p hp vk wf hwf) hs hJ hk u w hlen

theorem rotate4_symmetric {C : Arr4 ℝ 2} (h : StiffnessSymmetric C) (R : Arr2 ℝ 2) : StiffnessSymmetric (rotate4 C R) := by
  intro i j k l
  have e1 : ∀ a b, C 1 0 a b = C 0 1 a b := fun a b => (h 1 0 a b).1
  have e2 : ∀ a b, C a b 1 0 = C a b 0 1 := fun a b => (h a b 1 0).2.1
  have e3 : C 0 1 0 0 = C 0 0 0 1 := (h 0 1 0 0).2.2
  have e4 : C 1 1 0 0 = C 0 0 1 1 := (h 1 1 0 0).2.2
  have e5 : C 1 1 0 1 = C 0 1 1 1 := (h 1 1 0 1).2.2
  simp only [rotate4, Fin.sum_univ_two, e1, e2, e3, e4, e5]
  refine ⟨?_, ?_, ?_⟩ <;> ring

/-- **C93.** The laminate stiffnesses and thermal resultants of symmetric plies are symmetric, as the energy theorem asks. -/
theorem C93_laminate_symmetric (ps : List Ply) (hC : ∀ p ∈ ps, StiffnessSymmetric p.C) (hG : ∀ p ∈ ps, ∀ i j, p.G i j = p.G j i)
    (al : Ply → Arr2 ℝ 2) (kappa dT grad : ℝ) :
    ∃ L NT MT,
      laminateStiffness (.each (ps.map Ply.C)) (.each (ps.map Ply.G)) (ps.map Ply.theta) (ps.map Ply.t) kappa = .ok L ∧
      laminateThermalLoads (.each (ps.map Ply.C)) (.each (ps.map al)) (ps.map Ply.theta) (ps.map Ply.t) dT grad = .ok (NT, MT) ∧
      SymmetricPlate ⟨L.A, L.D, L.Gs, some L.B, some NT, some MT⟩ := by
  obtain ⟨L, hL, hA, hB, hD, hS⟩ := laminate_eq ps kappa
  obtain ⟨NT, MT, hT, hN, hM⟩ := thermal_eq ps al dT grad
  have hQ : ∀ p ∈ ps, StiffnessSymmetric p.Q := fun p hp => rotate4_symmetric (hC p hp) _
  refine ⟨L, NT, MT, hL, hT, ⟨?_, ?_, ?_, ?_, ?_, ?_⟩⟩
  · intro i j k l
    simp only [hA]
    refine ⟨?_, ?_, ?_⟩ <;> apply plySum_congr <;> intro p hp a b
    · rw [(hQ p hp i j k l).1]
    · rw [(hQ p hp i j k l).2.1]
    · rw [(hQ p hp i j k l).2.2]
  · intro i j k l
    simp only [Option.getD_some, hB]
    refine ⟨?_, ?_, ?_⟩ <;> apply plySum_congr <;> intro p hp a b
    · rw [(hQ p hp i j k l).1]
    · rw [(hQ p hp i j k l).2.1]
    · rw [(hQ p hp i j k l).2.2]
  · intro i j k l
    simp only [hD]
    refine ⟨?_, ?_, ?_⟩ <;> apply plySum_congr <;> intro p hp a b
    · rw [(hQ p hp i j k l).1]
    · rw [(hQ p hp i j k l).2.1]
    · rw [(hQ p hp i j k l).2.2]
  · intro i j
    simp only [hS]
    congr 1
    apply plySum_congr
    intro p hp a b
    congr 1
    simp only [rotateInPlane2, rotate2, Fin.sum_univ_two, hG p hp 1 0]
    ring
  · intro i j
    simp only [Option.getD_some, hN]
    apply plySum_congr
    intro p hp a b
    rw [ddot_symm (hQ p hp)]
  · intro i j
    simp only [Option.getD_some, hM]
    apply plySum_congr
    intro p hp a b
    rw [ddot_symm (hQ p hp)]

/-- A plate of one quadrilateral, with coupling, and its weak form. -/
noncomputable def exPlate : PlateData ℝ :=
  ⟨isotropicInPlane 70 (1 / 4), isotropicInPlane 7 (1 / 4), eye ℝ 2, some (isotropicInPlane 1 (1 / 4)), some (eye ℝ 2), none⟩

theorem exPlate_symmetric : SymmetricPlate exPlate where
  A := (C91_isotropic (E := 70) (nu := 1 / 4) (by norm_num) (by norm_num)).2.2.1
  B := (C91_isotropic (E := 1) (nu := 1 / 4) (by norm_num) (by norm_num)).2.2.1
  D := (C91_isotropic (E := 7) (nu := 1 / 4) (by norm_num) (by norm_num)).2.2.1
  Gs := fun i j => by unfold exPlate eye; simp only [eq_comm]
  NT := fun i j => by show eye ℝ 2 i j = eye ℝ 2 j i; unfold eye; simp only [eq_comm]
  MT := fun i j => rfl

noncomputable def exPlateForm : WeakForm ℝ := fun v g _ _ =>
  match mindlinWeakForm exPlate "von_karman" v g with
  | .ok r => r
  | .error _ => ([], [])

theorem exPlateForm_ok (v : List (List ℝ)) (g : List (List (List ℝ))) (x iv : List ℝ) :
    mindlinWeakForm exPlate (strainMeasure true) v g = .ok (exPlateForm v g x iv) := rfl

/-- One triangle with displacement and rotation at its corners. -/
def exPlateProblem : Problem := ⟨[⟨3, 3, 3, [[0, 1, 2]]⟩, ⟨2, 3, 3, [[0, 1, 2]]⟩], 1, [], .full⟩

theorem exPlateProblem_wf : exPlateProblem.WF := by
  refine ⟨?_, ?_⟩
  · intro v hv
    simp only [exPlateProblem, List.mem_cons, List.not_mem_nil, or_false] at hv
    rcases hv with rfl | rfl <;> exact ⟨by decide, by decide, by decide⟩
  · intro fs hfs
    simp [exPlateProblem] at hfs

noncomputable def exPlateDisc : Discretization ℝ (List (QPoint ℝ)) (List (QPoint ℝ)) :=
  formDisc exPlateProblem 2 exPlateForm (fun _ _ _ _ => [])
    [[⟨[2 / 3, 1 / 3], [], [⟨[1 / 3, 1 / 3, 1 / 3], [[-1 / 2, -1], [1 / 2, 0], [0, 1]], 1⟩,
      ⟨[1 / 3, 1 / 3, 1 / 3], [[-1 / 2, -1], [1 / 2, 0], [0, 1]], 1⟩]⟩]] []

theorem exPlateDisc_kernels : FormKernels exPlateDisc 2 exPlateForm (fun _ _ _ _ => []) where
  vol := fun _ _ => rfl
  surf := fun _ _ _ => rfl
  cellPts := by
    intro pts hpts q hq
    simp only [exPlateDisc, formDisc, List.mem_cons, List.not_mem_nil, or_false] at hpts
    subst hpts
    simp only [List.mem_cons, List.not_mem_nil, or_false] at hq
    subst hq
    exact ⟨rfl, rfl⟩
  facePts := by
    intro fs hfs
    simp [exPlateDisc, formDisc] at hfs

/-- A von Kármán plate with membrane-bending coupling and thermal forces. -/
example (u w : List ℝ) (h : u.length = w.length) :
    HasDerivAt (fun t => potential exPlateDisc 2 (plateDensity exPlate true) (fun _ _ _ _ => []) (along u w t))
      (Spec.inner 15 (exPlateDisc.residualAt u) w) 0 :=
  C93_plate_residual exPlateDisc (formDisc_ok _ exPlateProblem_wf _ _ _ _ _ rfl .nil) rfl exPlate exPlate_symmetric true exPlateForm
    exPlateForm_ok _ (fun _ _ _ _ _ => rfl) (by
      intro pts hpts q hq i hi
      simp only [exPlateDisc, formDisc, List.mem_cons, List.not_mem_nil, or_false] at hpts
      subst hpts
      simp only [List.mem_cons, List.not_mem_nil, or_false] at hq
      subst hq
      have : i < 2 := hi
      interval_cases i <;> rfl) exPlateDisc_kernels u w h

end Verif.Props
