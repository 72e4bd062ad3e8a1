import Verif.Props.CmgCoarse

/-!
# Energy along the conjugate gradient passes of the geometric multigrid solver (C159)
-/

namespace Verif.Props
open Verif.Model Verif.Model.Cmg Verif.Lemmas Matrix

namespace Spec

/-- The solver allowed `k` passes. -/
noncomputable def after (q : CmgParams) (solve : SLevel → Vec → Vec) (l : SLevel) (rest : List SLevel) (b u0 : Vec) (k : ℕ) : PcgState :=
  solveJ { q with maxit := k } solve l rest b u0

/-- The product of residual and preconditioned residual is clear of the number `1e-30` added to it before the division. -/
def ClearOfGuard (rz : ℝ) : Prop := 0 ≤ rz ∨ rz < -(1 / 10 ^ 30)

end Spec

theorem dot_smul_right (nn : ℕ) (x : Vec) (t : ℝ) (y : Vec) : dot nn x (t • y) = t * dot nn x y := by
  unfold dot
  simp only [Pi.smul_apply, smul_eq_mul, Finset.mul_sum]
  exact Finset.sum_congr rfl fun n _ => Finset.sum_congr rfl fun c _ => by ring

/-- One more pass allowed: one more pass made, unless the loop had stopped. -/
theorem pcgLoop_succ (nn : ℕ) (A M : Vec → Vec) (tol : ℝ) : ∀ k s,
    (tol < maxAbs nn (pcgLoop nn A M tol k s).r → pcgLoop nn A M tol (k + 1) s = pcgBody nn A M (pcgLoop nn A M tol k s)) ∧
      (¬ tol < maxAbs nn (pcgLoop nn A M tol k s).r → pcgLoop nn A M tol (k + 1) s = pcgLoop nn A M tol k s)
  | 0, s => by
    constructor <;> intro h <;> simp only [pcgLoop] at h ⊢
    · rw [if_pos h]
    · rw [if_neg h]
  | k + 1, s => by
    by_cases h0 : tol < maxAbs nn s.r
    · have e : ∀ j, pcgLoop nn A M tol (j + 1) s = pcgLoop nn A M tol j (pcgBody nn A M s) := fun j => by
        simp only [pcgLoop]; rw [if_pos h0]
      rw [e, e]
      exact pcgLoop_succ nn A M tol k _
    · have e : ∀ j, pcgLoop nn A M tol (j + 1) s = s := fun j => by simp only [pcgLoop]; rw [if_neg h0]
      rw [e, e]
      exact ⟨fun h => absurd h h0, fun _ => rfl⟩

/-- What holds at every pass: displacement and direction vanish at fixed nodes, the residual is that of the displacement, and the
direction is at least as steep as the preconditioned residual. -/
structure Descending (KE : Matrix (Fin 8 × Fin 3) (Fin 8 × Fin 3) ℝ) (l : SLevel) (b : Vec) (s : PcgState) : Prop where
  u : mask l s.u = s.u
  p : mask l s.p = s.p
  r : s.r = mask l b - mv KE l s.u
  steep : ∃ t, 1 ≤ t ∧ dot l.nn s.p s.r = t * s.rz

theorem resid_eq (l : SLevel) (b u : Vec) : mask l (mask l b - mv KE l u) = resid KE l b u := by
  unfold resid
  funext n c
  unfold mask
  by_cases h : l.free n <;> simp [h]

theorem descending_step (hK : Elastic KE) (l : SLevel) (hl : Spec.Sound l) (b : Vec) (M : Vec → Vec) (hM : ∀ r, mask l (M r) = M r)
    (s : PcgState) (h : Descending KE l b s) (hg : Spec.ClearOfGuard s.rz) :
    Descending KE l b (pcgBody l.nn (mv KE l) M s) ∧
      Spec.potential KE l b (pcgBody l.nn (mv KE l) M s).u ≤
        Spec.potential KE l b s.u - s.rz ^ 2 / (2 * (Spec.levelForm KE l.els s.p s.p + 1 / 10 ^ 30)) := by
  obtain ⟨hu, hp, hr, t, ht, hst⟩ := h
  have hE : dot l.nn s.p (mv KE l s.p) = Spec.levelForm KE l.els s.p s.p := dot_mv l hl.range s.p s.p hp
  have hnn := levelForm_nonneg hK l.els hl.modulus s.p
  set w := Spec.levelForm KE l.els s.p s.p with hw
  have he : (0 : ℝ) < 1 / 10 ^ 30 := by positivity
  set ε : ℝ := 1 / 10 ^ 30 with hε
  have hwe : 0 < w + ε := by linarith
  have hfrac : w / (w + ε) ≤ 1 := by rw [div_le_one hwe]; linarith
  have hfrac0 : 0 ≤ w / (w + ε) := by positivity
  have hres : dot l.nn s.p (resid KE l b s.u) = t * s.rz := by
    rw [← hst, ← resid_eq, ← hr, dot_mask_right l _ _ hp]
  constructor
  · refine ⟨?_, ?_, ?_, ?_⟩
    · simp only [pcgBody]
      rw [mask_add, mask_smul, hu, hp]
    · simp only [pcgBody]
      rw [mask_add, mask_smul, hp, hM]
    · simp only [pcgBody]
      rw [mv_add, mv_smul, hr]
      abel
    · simp only [pcgBody, hE]
      set rn := s.r - (s.rz / (w + ε)) • mv KE l s.p with hrn
      refine ⟨1 + s.rz / (s.rz + ε) * (t - w / (w + ε)), ?_, ?_⟩
      · have h1 : 0 ≤ s.rz / (s.rz + ε) := by
          rcases hg with hg | hg
          · exact div_nonneg hg (by linarith)
          · rw [← hε] at hg
            exact div_nonneg_of_nonpos (by linarith) (by linarith)
        have h2 : 0 ≤ t - w / (w + ε) := by linarith
        have := mul_nonneg h1 h2
        linarith
      · have e1 : dot l.nn s.p rn = s.rz * (t - w / (w + ε)) := by
          rw [hrn, dot_sub_right, dot_smul_right, hst, hE]
          ring
        rw [dot_comm, dot_add_right, dot_smul_right, dot_comm l.nn rn s.p, e1]
        ring
  · simp only [pcgBody, hE]
    rw [potential_add hK.symm l hl.range b s.u _ (by rw [mask_smul, hp]), dot_comm, dot_smul_right, dot_comm, hres,
      levelForm_smul_right, levelForm_symm hK.symm, levelForm_smul_right, ← hw]
    have e2 : s.rz ^ 2 / (2 * (w + ε)) = s.rz ^ 2 / (w + ε) * (1 / 2) := by field_simp
    have e3 : s.rz / (w + ε) * (t * s.rz) = s.rz ^ 2 / (w + ε) * t := by ring
    have e4 : s.rz / (w + ε) * (s.rz / (w + ε) * w) / 2 = s.rz ^ 2 / (w + ε) * (w / (w + ε)) / 2 := by ring
    rw [e2, e3, e4]
    have h3 : 0 ≤ s.rz ^ 2 / (w + ε) := by positivity
    nlinarith [mul_nonneg h3 (by linarith : (0 : ℝ) ≤ t - 1), mul_nonneg h3 (by linarith : (0 : ℝ) ≤ 1 - w / (w + ε))]

theorem after_succ (q : CmgParams) (solve : SLevel → Vec → Vec) (l : SLevel) (rest : List SLevel) (b u0 : Vec) (k : ℕ) :
    let tol := q.tol * (maxAbs l.nn (mask l b - mv q.KE l (mask l u0)) + 1 / 10 ^ 30)
    (tol < maxAbs l.nn (Spec.after q solve l rest b u0 k).r → Spec.after q solve l rest b u0 (k + 1) =
      pcgBody l.nn (mv q.KE l) (vcycle q.KE q.pre q.post solve (l :: rest)) (Spec.after q solve l rest b u0 k)) ∧
    (¬ tol < maxAbs l.nn (Spec.after q solve l rest b u0 k).r →
      Spec.after q solve l rest b u0 (k + 1) = Spec.after q solve l rest b u0 k) :=
  pcgLoop_succ _ _ _ _ k _

theorem after_descending (q : CmgParams) (hK : Elastic q.KE) (solve : SLevel → Vec → Vec) (l : SLevel) (hl : Spec.Sound l)
    (rest : List SLevel) (b u0 : Vec) (k : ℕ) (hg : ∀ j < k, Spec.ClearOfGuard (Spec.after q solve l rest b u0 j).rz) :
    Descending q.KE l b (Spec.after q solve l rest b u0 k) := by
  induction k with
  | zero =>
    simp only [Spec.after, solveJ, pcgLoop]
    exact ⟨mask_mask _ _, vcycle_mask _ _ _ _ _ _, rfl, 1, le_refl _, by rw [one_mul, dot_comm]⟩
  | succ k ih =>
    have hk := ih fun j hj => hg j (by omega)
    obtain ⟨s1, s2⟩ := after_succ q solve l rest b u0 k
    by_cases h : q.tol * (maxAbs l.nn (mask l b - mv q.KE l (mask l u0)) + 1 / 10 ^ 30) <
        maxAbs l.nn (Spec.after q solve l rest b u0 k).r
    · rw [s1 h]
      exact (descending_step hK l hl b _ (fun r => vcycle_mask _ _ _ _ _ _) _ hk (hg k (by omega))).1
    · rw [s2 h]
      exact hk

/-- C159: no pass of the solver raises the potential energy of the displacement, whatever the sweeps, the levels below the first and
the coarse solve do, as long as the product of residual and preconditioned residual keeps clear of the number added to it: each pass
lowers the energy by at least the square of that product over twice the direction's energy (plus the number). -/
theorem C159_pass (q : CmgParams) (nu : ℝ) (hnu : -1 < nu) (hnu' : nu < 1 / 2) (hq : q.KE = makeKE nu 1)
    (solve : SLevel → Vec → Vec) (l : SLevel) (hl : Spec.Sound l) (rest : List SLevel) (b u0 : Vec) (k : ℕ)
    (hg : ∀ j ≤ k, Spec.ClearOfGuard (Spec.after q solve l rest b u0 j).rz) :
    Spec.potential q.KE l b (Spec.after q solve l rest b u0 (k + 1)).u ≤ Spec.potential q.KE l b (Spec.after q solve l rest b u0 k).u ∧
      ((∃ n < l.nn, ∃ c, q.tol * (maxAbs l.nn (Spec.after q solve l rest b u0 0).r + 1 / 10 ^ 30) <
          |(Spec.after q solve l rest b u0 k).r n c|) →
        Spec.potential q.KE l b (Spec.after q solve l rest b u0 (k + 1)).u ≤
          Spec.potential q.KE l b (Spec.after q solve l rest b u0 k).u - (Spec.after q solve l rest b u0 k).rz ^ 2 /
            (2 * (Spec.levelForm q.KE l.els (Spec.after q solve l rest b u0 k).p (Spec.after q solve l rest b u0 k).p + 1 / 10 ^ 30))) := by
  have hK : Elastic q.KE := hq ▸ makeKE_elastic hnu hnu'
  have hk := after_descending q hK solve l hl rest b u0 k fun j hj => hg j (by omega)
  obtain ⟨s1, s2⟩ := after_succ q solve l rest b u0 k
  have hstep := (descending_step hK l hl b (vcycle q.KE q.pre q.post solve (l :: rest)) (fun r => vcycle_mask _ _ _ _ _ _) _ hk
    (hg k (le_refl _))).2
  have hnn := levelForm_nonneg hK l.els hl.modulus (Spec.after q solve l rest b u0 k).p
  have hdrop : 0 ≤ (Spec.after q solve l rest b u0 k).rz ^ 2 /
      (2 * (Spec.levelForm q.KE l.els (Spec.after q solve l rest b u0 k).p (Spec.after q solve l rest b u0 k).p + 1 / 10 ^ 30)) := by
    positivity
  constructor
  · by_cases h : q.tol * (maxAbs l.nn (mask l b - mv q.KE l (mask l u0)) + 1 / 10 ^ 30) <
        maxAbs l.nn (Spec.after q solve l rest b u0 k).r
    · rw [s1 h]
      linarith
    · rw [s2 h]
  · rintro ⟨n, hn, c, hc⟩
    have h0 : (Spec.after q solve l rest b u0 0).r = mask l b - mv q.KE l (mask l u0) := rfl
    rw [h0] at hc
    rw [s1 (lt_of_lt_of_le hc (le_maxAbs _ _ hn c))]
    exact hstep

/-- C159: allowing more passes never gives a displacement of higher potential energy or one further from the exact solution in
energy; with no pass at all the displacement is the start's. -/
theorem C159_more_passes (q : CmgParams) (nu : ℝ) (hnu : -1 < nu) (hnu' : nu < 1 / 2) (hq : q.KE = makeKE nu 1)
    (solve : SLevel → Vec → Vec) (l : SLevel) (hl : Spec.Sound l) (rest : List SLevel) (b u0 : Vec) (hu0 : ∀ n, ¬ l.free n → ∀ c, u0 n c = 0)
    (k k' : ℕ) (hkk : k ≤ k') (hg : ∀ j < k', Spec.ClearOfGuard (Spec.after q solve l rest b u0 j).rz) :
    (Spec.after q solve l rest b u0 0).u = u0 ∧
      Spec.potential q.KE l b (Spec.after q solve l rest b u0 k').u ≤ Spec.potential q.KE l b (Spec.after q solve l rest b u0 k).u ∧
      ∀ x, Spec.Equilibrium q.KE l b x →
        Spec.levelForm q.KE l.els ((Spec.after q solve l rest b u0 k').u - x) ((Spec.after q solve l rest b u0 k').u - x) ≤
          Spec.levelForm q.KE l.els ((Spec.after q solve l rest b u0 k).u - x) ((Spec.after q solve l rest b u0 k).u - x) := by
  have hK : Elastic q.KE := hq ▸ makeKE_elastic hnu hnu'
  have hmono : Spec.potential q.KE l b (Spec.after q solve l rest b u0 k').u ≤ Spec.potential q.KE l b (Spec.after q solve l rest b u0 k).u := by
    induction k', hkk using Nat.le_induction with
    | base => exact le_refl _
    | succ m hm ih =>
      exact le_trans (C159_pass q nu hnu hnu' hq solve l hl rest b u0 m fun j hj => hg j (by omega)).1 (ih fun j hj => hg j (by omega))
  refine ⟨?_, hmono, fun x hx => ?_⟩
  · simp only [Spec.after, solveJ, pcgLoop]
    exact mask_of_fixed hu0
  · have hxm := mask_of_fixed hx.1
    have key : ∀ j, j ≤ k' → Spec.potential q.KE l b (Spec.after q solve l rest b u0 j).u = Spec.potential q.KE l b x +
        Spec.levelForm q.KE l.els ((Spec.after q solve l rest b u0 j).u - x) ((Spec.after q solve l rest b u0 j).u - x) / 2 := by
      intro j hj
      have hd := (after_descending q hK solve l hl rest b u0 j fun i hi => hg i (by omega)).u
      have hm : mask l ((Spec.after q solve l rest b u0 j).u - x) = (Spec.after q solve l rest b u0 j).u - x := by
        conv_rhs => rw [← hd, ← hxm]
        funext n c
        unfold mask
        by_cases h : l.free n <;> simp [h]
      have hz : dot l.nn ((Spec.after q solve l rest b u0 j).u - x) (resid q.KE l b x) = 0 := by
        have : resid q.KE l b x = 0 := by
          funext n c
          unfold resid mask
          by_cases h : l.free n
          · simp [h, hx.2 n h c]
          · simp [h]
        rw [this]
        unfold dot
        simp
      have := potential_add hK.symm l hl.range b x _ hm
      rw [add_sub_cancel, hz, sub_zero] at this
      exact this
    have a1 := key k' (le_refl _)
    have a2 := key k hkk
    linarith

/-- A preconditioner that does not raise the potential energy above that of the unloaded state does not point uphill. -/
theorem downhill_of_potential (hK : Elastic KE) (l : SLevel) (hl : Spec.Sound l) (r z : Vec) (h : Spec.potential KE l r z ≤ 0) :
    0 ≤ dot l.nn r z := by
  have := levelForm_nonneg hK l.els hl.modulus z
  unfold Spec.potential at h
  unfold dot
  linarith

theorem after_rz (q : CmgParams) (solve : SLevel → Vec → Vec) (l : SLevel) (rest : List SLevel) (b u0 : Vec) (k : ℕ) :
    (Spec.after q solve l rest b u0 k).rz = dot l.nn (Spec.after q solve l rest b u0 k).r
      (vcycle q.KE q.pre q.post solve (l :: rest) (Spec.after q solve l rest b u0 k).r) := by
  induction k with
  | zero => rfl
  | succ k ih =>
    obtain ⟨s1, s2⟩ := after_succ q solve l rest b u0 k
    by_cases h : q.tol * (maxAbs l.nn (mask l b - mv q.KE l (mask l u0)) + 1 / 10 ^ 30) <
        maxAbs l.nn (Spec.after q solve l rest b u0 k).r
    · rw [s1 h]
      rfl
    · rw [s2 h, ih]

/-- C159, without any hypothesis on the passes: on two levels of whole blocks (or any pair from such a hierarchy) with an exact coarse
solve and any numbers of sweeps, the product never is negative, so no pass raises the energy; with at least one sweep before the
correction every pass that is made lowers it strictly. -/
theorem C159_two_levels (q : CmgParams) (nu : ℝ) (hnu : -1 < nu) (hnu' : nu < 1 / 2) (hq : q.KE = makeKE nu 1) (htol : 0 ≤ q.tol)
    (L : ℕ) (g : Grid) (cells : List ℕ)
    (hc : ∀ e ∈ cells, e < g.numCells) (i : ℕ) (fine coarse : Level) (h1 : (build L g cells)[i]? = some fine)
    (h2 : (build L g cells)[i + 1]? = some coarse) (pred : FixedPred) (next : Option Level) (Emin E0 p : ℝ) (rho : List ℝ)
    (hlen : rho.length = fine.cells.length) (hpos : ∀ r ∈ rho, 0 < youngs Emin E0 p r) (hb : Spec.WholeBlocks fine coarse rho)
    (l lc : SLevel) (hl : l = toSLevel pred fine (some coarse) (rho.map (youngs Emin E0 p)))
    (hlc : lc = toSLevel pred coarse next ((coarsenRho fine coarse rho).map (youngs Emin E0 p)))
    (hfix : Spec.FixedAlike l lc) (solve : SLevel → Vec → Vec)
    (hsolve : ∀ load, (∀ n, ¬ lc.free n → ∀ c, load n c = 0) → Spec.Equilibrium q.KE lc load (solve lc load)) (b u0 : Vec) (k : ℕ) :
    0 ≤ (Spec.after q solve l [lc] b u0 k).rz ∧
      Spec.potential q.KE l b (Spec.after q solve l [lc] b u0 (k + 1)).u ≤ Spec.potential q.KE l b (Spec.after q solve l [lc] b u0 k).u ∧
      (1 ≤ q.pre → (Spec.after q solve l [lc] b u0 (k + 1)).k = (Spec.after q solve l [lc] b u0 k).k + 1 →
        Spec.potential q.KE l b (Spec.after q solve l [lc] b u0 (k + 1)).u <
          Spec.potential q.KE l b (Spec.after q solve l [lc] b u0 k).u) := by
  have hK : Elastic q.KE := hq ▸ makeKE_elastic hnu hnu'
  have hN : Nested q.KE l lc := by
    rw [hq]
    subst hl hlc
    exact nested_of_blocks nu L g cells hc i fine coarse h1 h2 pred next Emin E0 p rho hlen hpos hb hfix
  have hcyc : ∀ r, Spec.potential q.KE l r (vcycle q.KE q.pre q.post solve [l, lc] r) ≤
      Spec.potential q.KE l r (smooth q.KE l r q.pre 0) ∧ Spec.potential q.KE l r (smooth q.KE l r q.pre 0) ≤ 0 := by
    intro r
    rw [hq] at hsolve ⊢
    exact (C157_two_level_cycle_partial nu hnu hnu' L g cells hc i fine coarse h1 h2 pred next Emin E0 p rho hlen hpos hb l lc hl hlc
      hfix q.pre q.post solve hsolve r).2
  have hrz : ∀ j, 0 ≤ (Spec.after q solve l [lc] b u0 j).rz := by
    intro j
    rw [after_rz]
    exact downhill_of_potential hK l hN.fine _ _ (le_trans (hcyc _).1 (hcyc _).2)
  have hpass := C159_pass q nu hnu hnu' hq solve l hN.fine [lc] b u0 k fun j _ => Or.inl (hrz j)
  refine ⟨hrz k, hpass.1, fun hpre hk => ?_⟩
  obtain ⟨s1, s2⟩ := after_succ q solve l [lc] b u0 k
  have hrun : q.tol * (maxAbs l.nn (mask l b - mv q.KE l (mask l u0)) + 1 / 10 ^ 30) <
      maxAbs l.nn (Spec.after q solve l [lc] b u0 k).r := by
    by_contra h
    rw [s2 h] at hk
    omega
  have hdesc := after_descending q hK solve l hN.fine [lc] b u0 k fun j _ => Or.inl (hrz j)
  have hnn := levelForm_nonneg hK l.els hN.fine.modulus (Spec.after q solve l [lc] b u0 k).p
  have hstep := (descending_step hK l hN.fine b (vcycle q.KE q.pre q.post solve [l, lc]) (fun r => vcycle_mask _ _ _ _ _ _) _ hdesc
    (Or.inl (hrz k))).2
  rw [s1 hrun]
  refine lt_of_le_of_lt hstep ?_
  set r := (Spec.after q solve l [lc] b u0 k).r with hr
  have hpos' : 0 < (Spec.after q solve l [lc] b u0 k).rz := by
    rw [after_rz, ← hr]
    have hneg : Spec.potential q.KE l r (smooth q.KE l r q.pre 0) < 0 := by
      have hz : Spec.potential q.KE l r 0 = 0 := by
        unfold Spec.potential Spec.levelForm
        simp [Matrix.mulVec, dotProduct]
      rw [← hz]
      have hsw := (C111_sweeps nu hnu hnu' l hN.fine r 0 q.pre (mask_zero l)).2.2.1 hpre
      rw [← hq] at hsw
      refine hsw fun hs => ?_
      have hr0 : ∀ n c, r n c = 0 := by
        intro n c
        by_cases hf : l.free n
        · rw [← hs n hf c]
          unfold mv
          simp
        · rw [hr, hdesc.r]
          have hmv : mv q.KE l (Spec.after q solve l [lc] b u0 k).u n c = 0 := by
            unfold mv
            simp [hf]
          simp only [Pi.sub_apply, hmv, sub_zero]
          unfold mask
          simp [hf]
      have : maxAbs l.nn r ≤ 0 := maxAbs_le _ _ 0 (le_refl _) fun n _ c => by rw [hr0, abs_zero]
      have h0 : 0 ≤ maxAbs l.nn (mask l b - mv q.KE l (mask l u0)) := by
        unfold maxAbs
        generalize (List.range l.nn).flatMap _ = xs
        induction xs with
        | nil => exact le_refl _
        | cons x xs ih => exact le_max_of_le_right ih
      have : 0 ≤ q.tol * (maxAbs l.nn (mask l b - mv q.KE l (mask l u0)) + 1 / 10 ^ 30) := mul_nonneg htol (by positivity)
      linarith
    have h3 := lt_of_le_of_lt (hcyc r).1 hneg
    have := levelForm_nonneg hK l.els hN.fine.modulus (vcycle q.KE q.pre q.post solve [l, lc] r)
    unfold Spec.potential at h3
    unfold dot
    linarith
  have : 0 < (Spec.after q solve l [lc] b u0 k).rz ^ 2 /
      (2 * (Spec.levelForm q.KE l.els (Spec.after q solve l [lc] b u0 k).p (Spec.after q solve l [lc] b u0 k).p + 1 / 10 ^ 30)) := by
    positivity
  linarith

/-- A cube of 64 solid cells clamped at the bottom: its first two levels meet the hypotheses. -/
example : ∃ fine coarse, (build 3 ⟨4, 4, 4⟩ (List.range 64))[0]? = some fine ∧ (build 3 ⟨4, 4, 4⟩ (List.range 64))[1]? = some coarse ∧
    Spec.WholeBlocks fine coarse (List.replicate 64 1) ∧ Spec.Sound (toSLevel (fun t _ => t.2.2 == 0) fine (some coarse)
      ((List.replicate 64 1).map (youngs 0 1 1))) ∧
    Spec.FixedAlike (toSLevel (fun t _ => t.2.2 == 0) fine (some coarse) ((List.replicate 64 1).map (youngs 0 1 1)))
      (toSLevel (fun t _ => t.2.2 == 0) coarse none ((coarsenRho fine coarse (List.replicate 64 1)).map (youngs 0 1 1))) :=
  ⟨_, _, rfl, rfl, (box_hierarchy 0 1 1 1).1 0 _ _ _ rfl rfl rfl,
    C111_levels_sound 3 ⟨4, 4, 4⟩ (List.range 64) (by decide +kernel) 0 _ rfl _ _ _ (by rw [List.length_map, List.length_replicate]; decide +kernel) (by
      intro x hx
      obtain ⟨y, hy, rfl⟩ := List.mem_map.mp hx
      rw [List.eq_of_mem_replicate hy]
      simp [youngs]),
    C157_clamped_plane 3 ⟨4, 4, 4⟩ (List.range 64) (by decide +kernel) 0 _ _ rfl rfl _ _ _⟩

/-- C159, any number of levels of whole blocks, no sweeps: although the cycle itself overshoots (`C157_deeper_cycles_raise`), the passes
correct for it and never raise the energy. -/
theorem C159_deep_hierarchies (q : CmgParams) (nu : ℝ) (hnu : -1 < nu) (hnu' : nu < 1 / 2) (hq : q.KE = makeKE nu 1)
    (hpre : q.pre = 0) (hpost : q.post = 0) (L : ℕ) (g : Grid) (cells : List ℕ)
    (hc : ∀ e ∈ cells, e < g.numCells) (pred : FixedPred) (Emin E0 p : ℝ) (rho : List ℝ) (hlen : rho.length = cells.length)
    (hpos : ∀ r ∈ rho, 0 < youngs Emin E0 p r) (hb : Spec.BlockHierarchy L g cells pred Emin E0 p rho) (l last : SLevel) (rest : List SLevel)
    (hls : l :: rest = plainLevels pred Emin E0 p (build L g cells) (rhosFrom (build L g cells) rho)) (hl : Spec.Sound l)
    (hlast : (l :: rest).getLast? = some last) (solve : SLevel → Vec → Vec)
    (hsolve : ∀ load, (∀ n, ¬ last.free n → ∀ c, load n c = 0) → Spec.Equilibrium q.KE last load (solve last load)) (b u0 : Vec)
    (hu0 : ∀ n, ¬ l.free n → ∀ c, u0 n c = 0) (k k' : ℕ) (hkk : k ≤ k') :
    Spec.potential q.KE l b (Spec.after q solve l rest b u0 k').u ≤ Spec.potential q.KE l b (Spec.after q solve l rest b u0 k).u ∧
      Spec.potential q.KE l b (Spec.after q solve l rest b u0 k).u ≤ Spec.potential q.KE l b u0 := by
  have hg : ∀ j, Spec.ClearOfGuard (Spec.after q solve l rest b u0 j).rz := by
    intro j
    left
    rw [after_rz, hpre, hpost, hq]
    rw [hq] at hsolve
    exact (C157_deeper_cycles_raise nu hnu hnu' L g cells hc pred Emin E0 p rho hlen hpos hb (l :: rest) hls l last rfl hlast solve hsolve
      _ _ rfl).2.2.1
  refine ⟨(C159_more_passes q nu hnu hnu' hq solve l hl rest b u0 hu0 k k' hkk fun j _ => hg j).2.1, ?_⟩
  have h := C159_more_passes q nu hnu hnu' hq solve l hl rest b u0 hu0 0 k (Nat.zero_le _) fun j _ => hg j
  rw [h.1] at h
  exact h.2.1

example : Spec.BlockHierarchy 3 ⟨4, 4, 4⟩ (List.range 64) (fun t _ => t.2.2 == 0) 0 1 1 (List.replicate 64 1) := box_hierarchy 0 1 1 1

end Verif.Props
