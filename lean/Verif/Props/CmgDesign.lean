import Verif.Props.CmgSolve
import Verif.Lemmas.Dense
import Verif.Lemmas.EnergyPath
import Mathlib.Analysis.SpecialFunctions.Pow.Deriv

/-!
# Sensitivities (C114), the coarsest matrix (C115), averaging and loads (C116) of the geometric multigrid solver
-/

namespace Verif.Props
open Verif.Model Verif.Model.Cmg Verif.Lemmas Matrix

variable {KE : Matrix (Fin 8 × Fin 3) (Fin 8 × Fin 3) ℝ}

/-! ## Sensitivities -/

/-- Corners of the `k`-th cell. -/
def cornersOf (lev : Level) (k : ℕ) : Fin 8 → ℕ := fun a => (lev.ncid.getD k []).getD a 0

theorem cellForm_eq (ids : Fin 8 → ℕ) (u v : Vec) :
    cellForm KE ids u v = (fun i : Fin 8 × Fin 3 => u (ids i.1) i.2) ⬝ᵥ (KE *ᵥ fun i : Fin 8 × Fin 3 => v (ids i.1) i.2) := by
  simp only [cellForm, dotProduct, Matrix.mulVec, dotProduct, Finset.mul_sum]
  refine Finset.sum_congr rfl fun i _ => Finset.sum_congr rfl fun j _ => ?_
  ring

theorem sum_eq_range (xs : List ℝ) : xs.sum = ∑ k ∈ Finset.range xs.length, xs.getD k 0 := by
  rw [Finset.sum_range]
  conv_lhs => rw [← List.ofFn_getElem (xs := xs), List.sum_ofFn]
  refine Finset.sum_congr rfl fun i _ => ?_
  rw [List.getD_eq_getElem _ _ i.2]

theorem levelForm_range (pred : FixedPred) (lev : Level) (next : Option Level) (E : List ℝ) (hE : E.length = lev.ncid.length) (u v : Vec) :
    Spec.levelForm KE (toSLevel pred lev next E).els u v =
      ∑ k ∈ Finset.range E.length, E.getD k 0 * cellForm KE (cornersOf lev k) u v := by
  unfold Spec.levelForm
  rw [sum_eq_range]
  simp only [toSLevel, List.length_map, List.length_zipWith, hE, min_self]
  refine Finset.sum_congr rfl fun k hk => ?_
  rw [Finset.mem_range] at hk
  rw [List.getD_eq_getElem _ _ (by simp only [List.length_map, List.length_zipWith]; omega), List.getElem_map, List.getElem_zipWith,
    cellForm_eq, List.getD_eq_getElem E 0 (by omega)]
  simp only [cornersOf]
  rw [List.getD_eq_getElem lev.ncid [] hk]

theorem cellForm_deriv (ids : Fin 8 → ℕ) (u : ℝ → Vec) (u' v : Vec) (t : ℝ) (hu : ∀ n c, HasDerivAt (fun s => u s n c) (u' n c) t) :
    HasDerivAt (fun s => cellForm KE ids (u s) v) (cellForm KE ids u' v) t := by
  unfold cellForm
  exact HasDerivAt.fun_sum fun i _ => HasDerivAt.fun_sum fun j _ => ((hu _ _).mul_const _).mul_const _

theorem youngs_deriv (Emin E0 p : ℝ) (r : ℝ → ℝ) (r' t : ℝ) (hr : HasDerivAt r r' t) (h : r t ≠ 0 ∨ 1 ≤ p) :
    HasDerivAt (fun s => youngs Emin E0 p (r s)) (p * r t ^ (p - 1) * (E0 - Emin) * r') t := by
  unfold youngs
  have := ((hr.rpow_const h).mul_const (E0 - Emin)).const_add Emin
  exact this.congr_deriv (by ring)

theorem dot_deriv (nn : ℕ) (b : Vec) (u : ℝ → Vec) (u' : Vec) (t : ℝ) (hu : ∀ n c, HasDerivAt (fun s => u s n c) (u' n c) t) :
    HasDerivAt (fun s => dot nn b (u s)) (dot nn b u') t := by
  unfold dot
  exact HasDerivAt.fun_sum fun n _ => HasDerivAt.fun_sum fun c _ => (hu n c).const_mul _

namespace Spec

/-- A displacement in equilibrium with a load: zero at fixed nodes, balanced at free ones. -/
def Equilibrium (KE : Matrix (Fin 8 × Fin 3) (Fin 8 × Fin 3) ℝ) (l : SLevel) (b u : Vec) : Prop :=
  (∀ n, ¬ l.free n → ∀ c, u n c = 0) ∧ ∀ n, l.free n → ∀ c, mv KE l u n c = b n c

end Spec

theorem designCotangent_getD (pred : FixedPred) (lev : Level) (next : Option Level) (E : List ℝ) (hE : E.length = lev.ncid.length)
    (Emin E0 p : ℝ) (rho : List ℝ) (hrho : rho.length = lev.ncid.length) (u lam : Vec)
    (hlam : mask (toSLevel pred lev next E) lam = lam) (k : ℕ) (hk : k < rho.length) :
    (designCotangent KE Emin E0 p (toSLevel pred lev next E) rho u lam).getD k 0 =
      -(p * rho.getD k 0 ^ (p - 1) * (E0 - Emin) * cellForm KE (cornersOf lev k) u lam) := by
  unfold designCotangent
  have hl : k < (List.zipWith (fun (ids : List ℕ) (e : ℝ) => ((fun a : Fin 8 => ids.getD a 0), e)) lev.ncid E).length := by
    rw [List.length_zipWith]; omega
  rw [List.getD_eq_getElem _ _ (by rw [List.length_zipWith]; exact lt_min hk hl), List.getElem_zipWith, List.getD_eq_getElem rho 0 hk]
  have he : ∀ h, ((toSLevel pred lev next E).els[k]'h).1 = cornersOf lev k := by
    intro h
    simp only [toSLevel, List.getElem_zipWith]
    unfold cornersOf
    rw [List.getD_eq_getElem lev.ncid [] (by omega)]
  simp only [he]
  congr 2
  have hm : ∀ n c, (if (toSLevel pred lev next E).free n then lam n c else 0) = lam n c := fun n c =>
    congrFun (congrFun hlam n) c
  simp only [hm]
  unfold cellForm
  rw [Finset.sum_comm]
  refine Finset.sum_congr rfl fun i _ => ?_
  rw [Finset.mul_sum]
  refine Finset.sum_congr rfl fun j _ => ?_
  ring

/-- The energy form of one cell as a bilinear map. -/
noncomputable def cellBilin (KE : Matrix (Fin 8 × Fin 3) (Fin 8 × Fin 3) ℝ) (ids : Fin 8 → ℕ) : Vec →ₗ[ℝ] Vec →ₗ[ℝ] ℝ :=
  LinearMap.mk₂ ℝ (cellForm KE ids)
    (fun x y v => by simp only [cellForm, Pi.add_apply, add_mul, Finset.sum_add_distrib])
    (fun c x v => by simp only [cellForm, Pi.smul_apply, smul_eq_mul, mul_assoc, Finset.mul_sum])
    (fun x y v => by simp only [cellForm, Pi.add_apply, mul_add, Finset.sum_add_distrib])
    (fun c x v => by
      simp only [cellForm, Pi.smul_apply, smul_eq_mul, Finset.mul_sum]
      exact Finset.sum_congr rfl fun i _ => Finset.sum_congr rfl fun j _ => by ring)

theorem cellBilin_apply (ids : Fin 8 → ℕ) (u v : Vec) : cellBilin KE ids u v = cellForm KE ids u v := rfl

/-- C114: with exact solves, the gradient returned for a cotangent of the displacement is the true one: along every differentiable
path of designs whose moduli are positive, `⟨ū, u⟩` is differentiable and its derivative is the pairing of the returned design
cotangent with the velocity of the design. -/
theorem C114_adjoint_gradient (nu : ℝ) (h1 : -1 < nu) (h2 : nu < 1 / 2) (L : ℕ) (g : Grid) (cells : List ℕ)
    (hc : ∀ e ∈ cells, e < g.numCells) (lev : Level) (hlev : (build L g cells)[0]? = some lev) (pred : FixedPred) (next : Option Level)
    (Emin E0 p : ℝ) (rho : ℝ → List ℝ) (vel : List ℝ) (t : ℝ) (hlen : ∀ s, (rho s).length = lev.cells.length)
    (hrho : ∀ k < lev.cells.length, HasDerivAt (fun s => (rho s).getD k 0) (vel.getD k 0) t)
    (hpow : ∀ k < lev.cells.length, (rho t).getD k 0 ≠ 0 ∨ 1 ≤ p)
    (hpos : ∀ k < lev.cells.length, 0 < youngs Emin E0 p ((rho t).getD k 0)) (b : Vec) (u : ℝ → Vec)
    (heq : ∀ s, Spec.Equilibrium (makeKE nu 1) (toSLevel pred lev next ((rho s).map (youngs Emin E0 p))) b (u s)) (ubar lam : Vec)
    (hlam : Spec.Equilibrium (makeKE nu 1) (toSLevel pred lev next ((rho t).map (youngs Emin E0 p))) ubar lam) :
    HasDerivAt (fun s => dot lev.nodes.length (mask (toSLevel pred lev next []) ubar) (u s))
      (∑ k ∈ Finset.range lev.cells.length, (designCotangent (makeKE nu 1) Emin E0 p
        (toSLevel pred lev next ((rho t).map (youngs Emin E0 p))) (rho t) (u t) lam).getD k 0 * vel.getD k 0) t := by
  obtain ⟨_, _, _, _, _, _, hncid, hcorner⟩ := (C109_levels L g cells hc).2 0 lev hlev
  set KE := makeKE nu 1 with hKE
  have hK : Elastic KE := makeKE_elastic h1 h2
  set ls : ℝ → SLevel := fun s => toSLevel pred lev next ((rho s).map (youngs Emin E0 p)) with hls
  have hr : ∀ s, ∀ el ∈ (ls s).els, ∀ a, el.1 a < (ls s).nn := by
    intro s el hel a
    simp only [hls, toSLevel] at hel ⊢
    obtain ⟨k, hk, rfl⟩ := List.getElem_of_mem hel
    simp only [List.length_zipWith] at hk
    rw [List.getElem_zipWith]
    have := (hcorner k (by omega) a).1
    rwa [List.getD_eq_getElem lev.ncid [] (by omega)] at this
  have hmask : ∀ s, mask (ls s) = mask (toSLevel pred lev next []) := fun s => rfl
  have hum : ∀ s, mask (ls t) (u s) = u s := fun s => mask_of_fixed (heq s).1
  have hlm : mask (ls t) lam = lam := mask_of_fixed hlam.1
  have hE : ∀ s, ((rho s).map (youngs Emin E0 p)).length = lev.ncid.length := fun s => by
    rw [List.length_map, hlen, hncid]
  have hform : ∀ s v w, Spec.levelForm KE (ls s).els v w =
      ∑ k ∈ Finset.range lev.cells.length, youngs Emin E0 p ((rho s).getD k 0) * cellForm KE (cornersOf lev k) v w := by
    intro s v w
    rw [hls, levelForm_range pred lev next _ (hE s)]
    rw [List.length_map, hlen]
    refine Finset.sum_congr rfl fun k hk => ?_
    rw [Finset.mem_range] at hk
    congr 1
    rw [List.getD_eq_getElem _ _ (by rw [List.length_map, hlen]; exact hk), List.getElem_map,
      List.getD_eq_getElem _ _ (by rw [hlen]; exact hk)]
  have hconst : ∀ s v, mask (ls t) v = v → Spec.levelForm KE (ls s).els (u s) v = dot lev.nodes.length v b := by
    intro s v hv
    rw [← dot_mv (ls s) (hr s) (u s) v hv]
    unfold dot
    refine Finset.sum_congr rfl fun n _ => Finset.sum_congr rfl fun c _ => ?_
    by_cases hn : (ls s).free n
    · rw [(heq s).2 n hn c]
    · rw [mask_fixed hv hn c, zero_mul, zero_mul]
  have hcont : ∀ k ∈ Finset.range lev.cells.length, ContinuousAt (fun s => cellForm KE (cornersOf lev k) (u s) lam) t := by
    intro k hk
    refine energy_path (Finset.range lev.cells.length) (fun k => cellBilin KE (cornersOf lev k)) ?_ ?_
      (fun s k => youngs Emin E0 p ((rho s).getD k 0)) t ?_ ?_ u ?_ k hk lam
    · intro j x y
      rw [cellBilin_apply, cellBilin_apply, cellForm_eq, cellForm_eq, Matrix.dotProduct_mulVec, ← Matrix.mulVec_transpose, hK.symm,
        dotProduct_comm]
    · intro j x
      rw [cellBilin_apply, cellForm_eq]
      exact hK.nonneg _
    · intro j hj
      rw [Finset.mem_range] at hj
      exact (youngs_deriv Emin E0 p _ _ t (hrho j hj) (hpow j hj)).continuousAt
    · intro j hj
      exact hpos j (Finset.mem_range.mp hj)
    · intro s
      have hd : mask (ls t) (u s - u t) = u s - u t := by
        apply mask_of_fixed
        intro n hn c
        rw [Pi.sub_apply, Pi.sub_apply, mask_fixed (hum s) hn c, mask_fixed (hum t) hn c, sub_zero]
      have e1 := hconst s _ hd
      have e2 := hconst t _ hd
      rw [hform] at e1 e2
      exact e1.trans e2.symm
  have hF : ∀ s, dot lev.nodes.length (mask (toSLevel pred lev next []) ubar) (u s) =
      dot lev.nodes.length lam b - ∑ k ∈ Finset.range lev.cells.length,
        (youngs Emin E0 p ((rho s).getD k 0) - youngs Emin E0 p ((rho t).getD k 0)) * cellForm KE (cornersOf lev k) (u s) lam := by
    intro s
    have hub : dot (ls t).nn (u s) (mv KE (ls t) lam) = dot lev.nodes.length (mask (toSLevel pred lev next []) ubar) (u s) := by
      rw [dot_comm lev.nodes.length]
      unfold dot
      refine Finset.sum_congr rfl fun n _ => Finset.sum_congr rfl fun c _ => ?_
      by_cases hn : (ls t).free n
      · rw [hlam.2 n hn c, ← hmask t]; simp [mask, hn]
      · rw [mask_fixed (hum s) hn c, zero_mul, zero_mul]
    rw [← hub, dot_mv (ls t) (hr t) lam (u s) (hum s), levelForm_symm hK.symm, hform, ← hconst s lam hlm, hform, ← Finset.sum_sub_distrib]
    refine Finset.sum_congr rfl fun k _ => ?_
    ring
  have hd : HasDerivAt (fun s => dot lev.nodes.length lam b - ∑ k ∈ Finset.range lev.cells.length,
        (youngs Emin E0 p ((rho s).getD k 0) - youngs Emin E0 p ((rho t).getD k 0)) * cellForm KE (cornersOf lev k) (u s) lam)
      (-∑ k ∈ Finset.range lev.cells.length, p * (rho t).getD k 0 ^ (p - 1) * (E0 - Emin) * vel.getD k 0 *
        cellForm KE (cornersOf lev k) (u t) lam) t := by
    refine HasDerivAt.const_sub _ (HasDerivAt.fun_sum fun k hk => ?_)
    have hk' := Finset.mem_range.mp hk
    exact deriv_vanishing_mul ((youngs_deriv Emin E0 p _ _ t (hrho k hk') (hpow k hk')).sub_const _) (sub_self _) (hcont k hk)
  rw [show (fun s => dot lev.nodes.length (mask (toSLevel pred lev next []) ubar) (u s)) = _ from funext hF]
  refine hd.congr_deriv ?_
  rw [← Finset.sum_neg_distrib]
  refine Finset.sum_congr rfl fun k hk => ?_
  rw [Finset.mem_range] at hk
  rw [designCotangent_getD pred lev next _ (hE t) Emin E0 p (rho t) (by rw [hlen, hncid]) (u t) lam hlm k (by rw [hlen]; exact hk)]
  ring

/-- C114: the same for every objective: when the equilibrium can be solved for every load at the design, the displacement is
differentiable along the path, and for an objective `G` of the displacement of the nodes with gradient `ū` the derivative of
`G(u(ρ))` is the pairing of the returned design cotangent with the velocity of the design. -/
theorem C114_objective (nu : ℝ) (h1 : -1 < nu) (h2 : nu < 1 / 2) (L : ℕ) (g : Grid) (cells : List ℕ)
    (hc : ∀ e ∈ cells, e < g.numCells) (lev : Level) (hlev : (build L g cells)[0]? = some lev) (pred : FixedPred) (next : Option Level)
    (Emin E0 p : ℝ) (rho : ℝ → List ℝ) (vel : List ℝ) (t : ℝ) (hlen : ∀ s, (rho s).length = lev.cells.length)
    (hrho : ∀ k < lev.cells.length, HasDerivAt (fun s => (rho s).getD k 0) (vel.getD k 0) t)
    (hpow : ∀ k < lev.cells.length, (rho t).getD k 0 ≠ 0 ∨ 1 ≤ p)
    (hpos : ∀ k < lev.cells.length, 0 < youngs Emin E0 p ((rho t).getD k 0)) (b : Vec) (u : ℝ → Vec)
    (heq : ∀ s, Spec.Equilibrium (makeKE nu 1) (toSLevel pred lev next ((rho s).map (youngs Emin E0 p))) b (u s))
    (hsolve : ∀ load : Vec, ∃ v, Spec.Equilibrium (makeKE nu 1) (toSLevel pred lev next ((rho t).map (youngs Emin E0 p))) load v)
    (G : (Fin lev.nodes.length → Fin 3 → ℝ) → ℝ) (G' : (Fin lev.nodes.length → Fin 3 → ℝ) →L[ℝ] ℝ)
    (hG : HasFDerivAt G G' (fun n => u t n)) (ubar lam : Vec)
    (hubar : ∀ w : Vec, G' (fun n => w n) = ∑ n ∈ Finset.range lev.nodes.length, ∑ c : Fin 3, ubar n c * w n c)
    (hlam : Spec.Equilibrium (makeKE nu 1) (toSLevel pred lev next ((rho t).map (youngs Emin E0 p))) ubar lam) :
    HasDerivAt (fun s => G (fun n => u s n))
      (∑ k ∈ Finset.range lev.cells.length, (designCotangent (makeKE nu 1) Emin E0 p
        (toSLevel pred lev next ((rho t).map (youngs Emin E0 p))) (rho t) (u t) lam).getD k 0 * vel.getD k 0) t := by
  have base := C114_adjoint_gradient nu h1 h2 L g cells hc lev hlev pred next Emin E0 p rho vel t hlen hrho hpow hpos b u heq
  have hum : ∀ s n, ¬ (toSLevel pred lev next []).free n → ∀ c, u s n c = 0 := fun s n hn c => (heq s).1 n hn c
  have hdot : ∀ w s, dot lev.nodes.length (mask (toSLevel pred lev next []) w) (u s) =
      ∑ n ∈ Finset.range lev.nodes.length, ∑ c : Fin 3, w n c * u s n c := by
    intro w s
    unfold dot
    refine Finset.sum_congr rfl fun n _ => Finset.sum_congr rfl fun c _ => ?_
    by_cases hn : (toSLevel pred lev next []).free n
    · simp [mask, hn]
    · rw [hum s n hn c, mul_zero, mul_zero]
  have hcomp : ∀ n < lev.nodes.length, ∀ c, ∃ d, HasDerivAt (fun s => u s n c) d t := by
    intro n hn c
    obtain ⟨v, hv⟩ := hsolve (fun m e => if m = n ∧ e = c then 1 else 0)
    refine ⟨_, (base _ v hv).congr_of_eventuallyEq (Filter.Eventually.of_forall fun s => ?_)⟩
    dsimp only
    rw [hdot, Finset.sum_eq_single_of_mem n (Finset.mem_range.mpr hn), Finset.sum_eq_single_of_mem c (Finset.mem_univ _)]
    · simp
    · intro e _ he; simp [he]
    · intro m _ hm; simp [hm]
  choose! d hd using hcomp
  have hu : HasDerivAt (fun s => fun n : Fin lev.nodes.length => u s n) (fun n => d n) t :=
    hasDerivAt_pi.mpr fun n => hasDerivAt_pi.mpr fun c => hd n n.2 c
  have h := HasFDerivAt.comp_hasDerivAt t hG hu
  refine h.congr_deriv ?_
  rw [hubar d]
  refine HasDerivAt.unique ?_ (base ubar lam hlam)
  rw [show (fun s => dot lev.nodes.length (mask (toSLevel pred lev next []) ubar) (u s)) = _ from funext (hdot ubar)]
  refine HasDerivAt.fun_sum fun n hn => HasDerivAt.fun_sum fun c _ => (hd n (Finset.mem_range.mp hn) c).const_mul _

/-- C114: in equilibrium the compliance returned is the work of the load, and the sensitivities are the design cotangent of that
work, so they are its derivatives. -/
theorem C114_compliance (nu : ℝ) (h1 : -1 < nu) (h2 : nu < 1 / 2) (L : ℕ) (g : Grid) (cells : List ℕ)
    (hc : ∀ e ∈ cells, e < g.numCells) (lev : Level) (hlev : (build L g cells)[0]? = some lev) (pred : FixedPred) (next : Option Level)
    (Emin E0 p : ℝ) (rho : List ℝ) (hlen : rho.length = lev.cells.length) (b u : Vec)
    (heq : Spec.Equilibrium (makeKE nu 1) (toSLevel pred lev next (rho.map (youngs Emin E0 p))) b u) :
    (complianceAndDc (makeKE nu 1) Emin E0 p lev.ncid rho u).1 = ∑ n ∈ Finset.range lev.nodes.length, ∑ c : Fin 3, b n c * u n c ∧
      (complianceAndDc (makeKE nu 1) Emin E0 p lev.ncid rho u).2 =
        designCotangent (makeKE nu 1) Emin E0 p (toSLevel pred lev next (rho.map (youngs Emin E0 p))) rho u u := by
  obtain ⟨_, _, _, _, _, _, hncid, hcorner⟩ := (C109_levels L g cells hc).2 0 lev hlev
  set KE := makeKE nu 1 with hKE
  set l := toSLevel pred lev next (rho.map (youngs Emin E0 p)) with hl
  have hE : (rho.map (youngs Emin E0 p)).length = lev.ncid.length := by rw [List.length_map, hlen, hncid]
  have hum : mask l u = u := mask_of_fixed heq.1
  have hr : ∀ el ∈ l.els, ∀ a, el.1 a < l.nn := by
    intro el hel a
    simp only [hl, toSLevel] at hel ⊢
    obtain ⟨k, hk, rfl⟩ := List.getElem_of_mem hel
    simp only [List.length_zipWith] at hk
    rw [List.getElem_zipWith]
    have := (hcorner k (by omega) a).1
    rwa [List.getD_eq_getElem lev.ncid [] (by omega)] at this
  constructor
  · have e1 : (complianceAndDc KE Emin E0 p lev.ncid rho u).1 = Spec.levelForm KE l.els u u := by
      rw [hl, levelForm_range pred lev next _ hE]
      simp only [complianceAndDc]
      rw [sum_eq_range]
      simp only [List.length_zipWith, List.length_map, hlen, hncid, min_self]
      refine Finset.sum_congr rfl fun k hk => ?_
      rw [Finset.mem_range] at hk
      rw [List.getD_eq_getElem _ _ (by simp only [List.length_zipWith, List.length_map]; omega), List.getElem_zipWith, List.getElem_map,
        List.getD_eq_getElem _ _ (by rw [List.length_map]; omega), List.getElem_map]
      unfold cornersOf
      rw [List.getD_eq_getElem lev.ncid [] (by omega)]
    rw [e1, ← dot_mv l hr u u hum]
    unfold dot
    refine Finset.sum_congr rfl fun n _ => Finset.sum_congr rfl fun c _ => ?_
    by_cases hn : l.free n
    · rw [heq.2 n hn c, mul_comm]
    · rw [heq.1 n hn c, zero_mul, mul_zero]
  · have hlen2 : (designCotangent KE Emin E0 p l rho u u).length = lev.cells.length := by
      simp only [designCotangent, hl, toSLevel, List.length_zipWith, List.length_map]; omega
    apply List.ext_getElem
    · rw [hlen2]
      simp only [complianceAndDc, List.length_zipWith, List.length_map]; omega
    · intro k hk hk'
      rw [hlen2] at hk'
      have := designCotangent_getD (KE := KE) pred lev next _ hE Emin E0 p rho (by omega) u u hum k (by omega)
      rw [← hl, List.getD_eq_getElem _ _ (by rw [hlen2]; exact hk')] at this
      rw [this]
      simp only [complianceAndDc, List.getElem_zipWith, List.getElem_map]
      rw [List.getD_eq_getElem rho 0 (by omega)]
      unfold cornersOf
      rw [List.getD_eq_getElem lev.ncid [] (by omega)]
      ring

/-- One cell, four nodes held, stiffness `1 + s²`: any displacement `u₀` of the free nodes, divided by the stiffness, balances a
constant load, so the hypotheses of the two theorems hold along this path. -/
example (pred : FixedPred) (lev : Level) (hlev : (build 1 ⟨1, 1, 1⟩ [0])[0]? = some lev) (u0 : Vec)
    (hu0 : mask (toSLevel pred lev none []) u0 = u0) (s : ℝ) :
    Spec.Equilibrium KE (toSLevel pred lev none ([s].map (youngs 1 2 2))) (mv KE (toSLevel pred lev none [1]) u0)
      ((1 / (1 + s ^ 2)) • u0) := by
  have hl : lev = mkLevel ⟨1, 1, 1⟩ [0] := by
    have : (build 1 ⟨1, 1, 1⟩ [0])[0]? = some (mkLevel ⟨1, 1, 1⟩ [0]) := rfl
    rw [this] at hlev
    exact (Option.some.inj hlev).symm
  have hs : (1 : ℝ) + s ^ 2 ≠ 0 := by positivity
  have he : ([s].map (youngs 1 2 2) : List ℝ) = [1 + s ^ 2] := by
    simp [youngs]; norm_num
  constructor
  · intro n hn c
    have := mask_fixed hu0 (n := n) hn c
    simp [this]
  · intro n hn c
    rw [he, mv_smul]
    subst hl
    have hn' : (toSLevel pred (mkLevel ⟨1, 1, 1⟩ [0]) none [1]).free n := hn
    have hn'' : (toSLevel pred (mkLevel ⟨1, 1, 1⟩ [0]) none [1 + s ^ 2]).free n := hn
    simp only [Pi.smul_apply, smul_eq_mul, mv, hn', hn'', if_true]
    simp only [toSLevel, mkLevel, List.map_cons, List.map_nil, List.zipWith_cons_cons, List.zipWith_nil_left, List.sum_cons, List.sum_nil,
      add_zero, Finset.mul_sum]
    refine Finset.sum_congr rfl fun a _ => ?_
    split
    · simp only [one_mul, Finset.mul_sum]
      refine Finset.sum_congr rfl fun j _ => ?_
      field_simp
    · simp

/-! ## The coarsest matrix -/

namespace Spec

/-- The stiffness between DOF `c` of node `n` and DOF `c'` of node `m`: cell by cell, corner by corner. -/
def stiffness (KE : Matrix (Fin 8 × Fin 3) (Fin 8 × Fin 3) ℝ) (els : List ((Fin 8 → ℕ) × ℝ)) (n m : ℕ) (c c' : Fin 3) : ℝ :=
  (els.map fun el => ∑ a : Fin 8, ∑ b : Fin 8, if el.1 a = n ∧ el.1 b = m then el.2 * KE (a, c) (b, c') else 0).sum

end Spec

theorem finRange_sum {k : ℕ} (f : Fin k → ℝ) : ((List.finRange k).map f).sum = ∑ i, f i := (Fin.sum_univ_def f).symm

theorem list_sum_ite {α : Type*} (xs : List α) (P : Prop) [Decidable P] (f : α → ℝ) :
    (xs.map fun x => if P then f x else 0).sum = if P then (xs.map f).sum else 0 := by
  split <;> simp

/-- Summing stored values by slot is summing them by key. -/
theorem slots_by_key (ps : List (ℕ × ℝ)) (keys : List ℕ) (hk : keys.Pairwise (· < ·)) (hm : ∀ q ∈ ps, q.1 ∈ keys) (k : ℕ) (hkk : k ∈ keys) :
    (segmentSum (ps.map (·.2)) (ps.map fun q => searchsorted keys q.1) keys.length).getD (searchsorted keys k) 0 = segSumAt ps k := by
  have hlt : searchsorted keys k < keys.length := by
    have := searchsorted_sorted hk hkk
    rw [List.getElem?_eq_some_iff] at this
    exact this.1
  rw [segmentSum_getD _ _ _ _ hlt, List.zip_map', segSumAt_eq_sum, segSumAt_eq_sum, List.map_map]
  congr 1
  apply List.map_congr_left
  intro q hq
  simp only [Function.comp_apply]
  have : searchsorted keys q.1 = searchsorted keys k ↔ q.1 = k := by
    constructor
    · intro h
      have h1 := searchsorted_sorted hk (hm q hq)
      rw [h, searchsorted_sorted hk hkk] at h1
      exact (Option.some.inj h1).symm
    · rintro rfl; rfl
  simp only [this]

/-- The entries with their keys, ones of the fixed DOFs included. -/
noncomputable def coarsePairs (KE : Matrix (Fin 8 × Fin 3) (Fin 8 × Fin 3) ℝ) (l : SLevel) : List (ℕ × ℝ) :=
  (coarseEntries KE l).map (fun e => (e.1 * (3 * l.nn) + e.2.1, e.2.2)) ++ (fixedDofs l).map fun d => (d * (3 * l.nn) + d, 1)

theorem coarseMatrix_eq (l : SLevel) (i j : ℕ) : coarseMatrix KE l i j = segSumAt (coarsePairs KE l) (i * (3 * l.nn) + j) := by
  have hkeys : coarseKeys KE l = Model.unique ((coarsePairs KE l).map (·.1)) := by
    simp only [coarseKeys, coarsePairs, List.map_append, List.map_map]
    rfl
  have hmem : ∀ q ∈ coarsePairs KE l, q.1 ∈ coarseKeys KE l := by
    intro q hq
    rw [hkeys, mem_unique]
    exact List.mem_map_of_mem hq
  have hdata : coarseData KE l = segmentSum ((coarsePairs KE l).map (·.2)) ((coarsePairs KE l).map fun q => searchsorted (coarseKeys KE l) q.1)
      (coarseKeys KE l).length := by
    simp only [coarseData, coarsePairs, List.map_append, List.map_map]
    rfl
  simp only [coarseMatrix]
  split
  · next h =>
    rw [hdata]
    exact slots_by_key _ _ (hkeys ▸ unique_lt _) hmem _ h
  · next h =>
    rw [segSumAt_eq_sum]
    symm
    apply List.sum_eq_zero
    intro x hx
    obtain ⟨q, hq, rfl⟩ := List.mem_map.mp hx
    rw [if_neg]
    intro he
    exact h (he ▸ hmem q hq)

theorem coarseEntries_sum (l : SLevel) (F : ℕ × ℕ × ℝ → ℝ) :
    ((coarseEntries KE l).map F).sum = (l.els.map fun el => ∑ a : Fin 8, ∑ c : Fin 3, ∑ b : Fin 8, ∑ c' : Fin 3,
      if l.free (el.1 a) && l.free (el.1 b) then F (3 * el.1 a + c.val, 3 * el.1 b + c'.val, el.2 * KE (a, c) (b, c')) else 0).sum := by
  simp only [coarseEntries, List.map_flatMap, sum_flatMap_real, finRange_sum]
  congr 1
  apply List.map_congr_left
  intro el _
  refine Finset.sum_congr rfl fun a _ => Finset.sum_congr rfl fun c _ => Finset.sum_congr rfl fun b _ => Finset.sum_congr rfl fun c' _ => ?_
  split <;> simp

theorem key_inj {N i j i' j' : ℕ} (hj : j < N) (hj' : j' < N) : i * N + j = i' * N + j' ↔ i = i' ∧ j = j' := by
  constructor
  · intro h
    have hN : 0 < N := by omega
    have h1 : (i * N + j) / N = i := by rw [Nat.mul_comm, Nat.mul_add_div hN, Nat.div_eq_of_lt hj, add_zero]
    have h2 : (i' * N + j') / N = i' := by rw [Nat.mul_comm, Nat.mul_add_div hN, Nat.div_eq_of_lt hj', add_zero]
    have : i = i' := by rw [← h1, h, h2]
    subst this
    exact ⟨rfl, by omega⟩
  · rintro ⟨rfl, rfl⟩; rfl

/-- C115: the matrix given to the direct solver of the last level is the stiffness between free nodes, the identity on fixed ones,
and zero elsewhere. -/
theorem C115_coarse_entries (l : SLevel) (hr : ∀ el ∈ l.els, ∀ a, el.1 a < l.nn) (n m : ℕ) (hn : n < l.nn) (hm : m < l.nn) (c c' : Fin 3) :
    coarseMatrix KE l (3 * n + c) (3 * m + c') =
      if l.free n ∧ l.free m then Spec.stiffness KE l.els n m c c' else if ¬ l.free n ∧ n = m ∧ c = c' then 1 else 0 := by
  rw [coarseMatrix_eq, coarsePairs, segSumAt_append, segSumAt_eq_sum, segSumAt_eq_sum, List.map_map, List.map_map]
  have hcol : 3 * m + c'.val < 3 * l.nn := by omega
  have e1 : ((coarseEntries KE l).map ((fun p : ℕ × ℝ => if p.1 = (3 * n + c.val) * (3 * l.nn) + (3 * m + c'.val) then p.2 else 0) ∘
      fun e => (e.1 * (3 * l.nn) + e.2.1, e.2.2))).sum = if l.free n ∧ l.free m then Spec.stiffness KE l.els n m c c' else 0 := by
    rw [coarseEntries_sum]
    have key : ∀ el ∈ l.els, (∑ a : Fin 8, ∑ d : Fin 3, ∑ b : Fin 8, ∑ d' : Fin 3,
        if l.free (el.1 a) && l.free (el.1 b) then
          ((fun p : ℕ × ℝ => if p.1 = (3 * n + c.val) * (3 * l.nn) + (3 * m + c'.val) then p.2 else 0) ∘
            fun e : ℕ × ℕ × ℝ => (e.1 * (3 * l.nn) + e.2.1, e.2.2)) (3 * el.1 a + d.val, 3 * el.1 b + d'.val, el.2 * KE (a, d) (b, d')) else 0) =
        if l.free n ∧ l.free m then ∑ a : Fin 8, ∑ b : Fin 8, (if el.1 a = n ∧ el.1 b = m then el.2 * KE (a, c) (b, c') else 0) else 0 := by
      intro el hel
      have h1 : ∀ a d b d', (if l.free (el.1 a) && l.free (el.1 b) then
          ((fun p : ℕ × ℝ => if p.1 = (3 * n + c.val) * (3 * l.nn) + (3 * m + c'.val) then p.2 else 0) ∘
            fun e : ℕ × ℕ × ℝ => (e.1 * (3 * l.nn) + e.2.1, e.2.2)) (3 * el.1 a + d.val, 3 * el.1 b + d'.val, el.2 * KE (a, d) (b, d')) else 0) =
          if d = c then (if d' = c' then (if l.free n ∧ l.free m then (if el.1 a = n ∧ el.1 b = m then el.2 * KE (a, d) (b, d') else 0) else 0) else 0) else 0 := by
        intro a d b d'
        have hb := hr el hel b
        have hk := key_inj (N := 3 * l.nn) (i := 3 * el.1 a + d.val) (j := 3 * el.1 b + d'.val) (i' := 3 * n + c.val) (j' := 3 * m + c'.val)
          (by omega) hcol
        simp only [Function.comp_apply, hk]
        have h3 : (3 * el.1 a + d.val = 3 * n + c.val ∧ 3 * el.1 b + d'.val = 3 * m + c'.val) ↔
            (d = c ∧ d' = c' ∧ el.1 a = n ∧ el.1 b = m) := by
          constructor
          · rintro ⟨q1, q2⟩
            refine ⟨Fin.ext (by omega), Fin.ext (by omega), by omega, by omega⟩
          · rintro ⟨rfl, rfl, rfl, rfl⟩; exact ⟨rfl, rfl⟩
        simp only [h3]
        by_cases g1 : d = c <;> by_cases g2 : d' = c' <;> by_cases g3 : el.1 a = n <;> by_cases g4 : el.1 b = m <;>
          simp [g1, g2, g3, g4]
      have h4 : ∀ a, (∑ d : Fin 3, ∑ b : Fin 8, if d = c then (if l.free n ∧ l.free m then
          (if el.1 a = n ∧ el.1 b = m then el.2 * KE (a, d) (b, c') else 0) else 0) else 0) =
          ∑ b : Fin 8, if l.free n ∧ l.free m then (if el.1 a = n ∧ el.1 b = m then el.2 * KE (a, c) (b, c') else 0) else 0 := by
        intro a
        rw [Finset.sum_comm]
        simp only [Finset.sum_ite_eq', Finset.mem_univ, if_true]
      have h5 : ∀ a d b, (∑ d' : Fin 3, if d = c then (if d' = c' then (if l.free n ∧ l.free m then
          (if el.1 a = n ∧ el.1 b = m then el.2 * KE (a, d) (b, d') else 0) else 0) else 0) else 0) =
          if d = c then (if l.free n ∧ l.free m then (if el.1 a = n ∧ el.1 b = m then el.2 * KE (a, d) (b, c') else 0) else 0) else 0 := by
        intro a d b
        split
        · simp only [Finset.sum_ite_eq', Finset.mem_univ, if_true]
        · simp
      have h6 : (∑ a : Fin 8, ∑ b : Fin 8, if l.free n ∧ l.free m then
          (if el.1 a = n ∧ el.1 b = m then el.2 * KE (a, c) (b, c') else 0) else 0) = if l.free n ∧ l.free m then
          ∑ a : Fin 8, ∑ b : Fin 8, (if el.1 a = n ∧ el.1 b = m then el.2 * KE (a, c) (b, c') else 0) else 0 := by
        split <;> simp
      rw [← h6]
      refine Finset.sum_congr rfl fun a _ => ?_
      rw [← h4 a]
      refine Finset.sum_congr rfl fun d _ => Finset.sum_congr rfl fun b _ => ?_
      rw [← h5 a d b]
      exact Finset.sum_congr rfl fun d' _ => h1 a d b d'
    rw [List.map_congr_left key, list_sum_ite]
    rfl
  have e2 : ((fixedDofs l).map ((fun p : ℕ × ℝ => if p.1 = (3 * n + c.val) * (3 * l.nn) + (3 * m + c'.val) then p.2 else 0) ∘
      fun d => (d * (3 * l.nn) + d, 1))).sum = if ¬ l.free n ∧ n = m ∧ c = c' then 1 else 0 := by
    have hcg : ∀ d ∈ fixedDofs l, ((fun p : ℕ × ℝ => if p.1 = (3 * n + c.val) * (3 * l.nn) + (3 * m + c'.val) then p.2 else 0) ∘
        fun d => (d * (3 * l.nn) + d, 1)) d = if d = 3 * n + c.val then (if n = m ∧ c = c' then 1 else 0) else 0 := by
      intro d hd
      simp only [fixedDofs, List.mem_filter, List.mem_range] at hd
      simp only [Function.comp_apply, key_inj hd.1 hcol]
      by_cases g1 : d = 3 * n + c.val
      · subst g1
        have : (3 * n + c.val = 3 * m + c'.val) ↔ (n = m ∧ c = c') := by
          constructor
          · intro h; exact ⟨by omega, Fin.ext (by omega)⟩
          · rintro ⟨rfl, rfl⟩; rfl
        simp [this]
      · simp [g1]
    rw [List.map_congr_left hcg]
    have hnd : (fixedDofs l).Nodup := List.nodup_range.filter _
    have hsum : ((fixedDofs l).map fun d => if d = 3 * n + c.val then (if n = m ∧ c = c' then (1 : ℝ) else 0) else 0).sum =
        if 3 * n + c.val ∈ fixedDofs l then (if n = m ∧ c = c' then (1 : ℝ) else 0) else 0 := by
      rw [← List.sum_toFinset _ hnd, Finset.sum_ite_eq']
      simp only [List.mem_toFinset]
    rw [hsum]
    have hin : 3 * n + c.val ∈ fixedDofs l ↔ ¬ l.free n := by
      simp only [fixedDofs, List.mem_filter, List.mem_range]
      have : (3 * n + c.val) / 3 = n := by omega
      rw [this]
      constructor
      · rintro ⟨_, h⟩; simpa using h
      · intro h; exact ⟨by omega, by simpa using h⟩
    simp only [hin]
    by_cases g : l.free n <;> simp [g]
  rw [e1, e2]
  by_cases g : l.free n <;> by_cases g' : l.free m <;> simp [g, g']

theorem stiffness_el (hs : KE.IsSymm) (nn : ℕ) (el : (Fin 8 → ℕ) × ℝ) (hlt : ∀ a, el.1 a < nn) (x : ℕ → Fin 3 → ℝ) (n : ℕ) (c : Fin 3) :
    (∑ a : Fin 8, if el.1 a = n then el.2 * ∑ j : Fin 8 × Fin 3, x (el.1 j.1) j.2 * KE j (a, c) else 0) =
      ∑ m ∈ Finset.range nn, ∑ c' : Fin 3,
        (∑ a : Fin 8, ∑ b : Fin 8, if el.1 a = n ∧ el.1 b = m then el.2 * KE (a, c) (b, c') else 0) * x m c' := by
  have h1 : ∀ m c', (∑ a : Fin 8, ∑ b : Fin 8, if el.1 a = n ∧ el.1 b = m then el.2 * KE (a, c) (b, c') else 0) * x m c' =
      ∑ a : Fin 8, ∑ b : Fin 8, if el.1 b = m then (if el.1 a = n then el.2 * KE (a, c) (b, c') * x m c' else 0) else 0 := by
    intro m c'
    rw [Finset.sum_mul]
    refine Finset.sum_congr rfl fun a _ => ?_
    rw [Finset.sum_mul]
    refine Finset.sum_congr rfl fun b _ => ?_
    by_cases g1 : el.1 a = n <;> by_cases g2 : el.1 b = m <;> simp [g1, g2]
  rw [Finset.sum_congr rfl fun m _ => Finset.sum_congr rfl fun c' _ => h1 m c']
  have h2 : (∑ m ∈ Finset.range nn, ∑ c' : Fin 3, ∑ a : Fin 8, ∑ b : Fin 8,
      if el.1 b = m then (if el.1 a = n then el.2 * KE (a, c) (b, c') * x m c' else 0) else 0) =
      ∑ a : Fin 8, ∑ b : Fin 8, ∑ c' : Fin 3, ∑ m ∈ Finset.range nn,
        if el.1 b = m then (if el.1 a = n then el.2 * KE (a, c) (b, c') * x m c' else 0) else 0 := by
    rw [Finset.sum_comm]
    rw [Finset.sum_congr rfl fun c' _ => Finset.sum_comm]
    rw [Finset.sum_comm]
    refine Finset.sum_congr rfl fun a _ => ?_
    rw [Finset.sum_congr rfl fun c' _ => Finset.sum_comm]
    rw [Finset.sum_comm]
  rw [h2]
  refine Finset.sum_congr rfl fun a _ => ?_
  have h3 : ∀ b c', (∑ m ∈ Finset.range nn, if el.1 b = m then (if el.1 a = n then el.2 * KE (a, c) (b, c') * x m c' else 0) else 0) =
      if el.1 a = n then el.2 * KE (a, c) (b, c') * x (el.1 b) c' else 0 := fun b c' =>
    sum_ite_index nn (el.1 b) (hlt b) fun m => if el.1 a = n then el.2 * KE (a, c) (b, c') * x m c' else 0
  rw [Finset.sum_congr rfl fun b _ => Finset.sum_congr rfl fun c' _ => h3 b c']
  by_cases g : el.1 a = n
  · rw [if_pos g, Finset.mul_sum, Fintype.sum_prod_type]
    refine Finset.sum_congr rfl fun b _ => Finset.sum_congr rfl fun c' _ => ?_
    rw [if_pos g, hs.apply (a, c) (b, c')]
    ring
  · rw [if_neg g]
    symm
    exact Finset.sum_eq_zero fun b _ => Finset.sum_eq_zero fun c' _ => if_neg g

theorem stiffness_mv (hs : KE.IsSymm) (l : SLevel) (hr : ∀ el ∈ l.els, ∀ a, el.1 a < l.nn) (x : Vec) (hx : mask l x = x) (n : ℕ)
    (hn : l.free n) (c : Fin 3) :
    mv KE l x n c = ∑ m ∈ Finset.range l.nn, ∑ c' : Fin 3, (if l.free m then Spec.stiffness KE l.els n m c c' else 0) * x m c' := by
  have h0 : ∀ m c', (if l.free m then Spec.stiffness KE l.els n m c c' else 0) * x m c' = Spec.stiffness KE l.els n m c c' * x m c' := by
    intro m c'
    by_cases hm : l.free m
    · simp [hm]
    · simp [mask_fixed hx hm c']
  rw [Finset.sum_congr rfl fun m _ => Finset.sum_congr rfl fun c' _ => h0 m c']
  have hmv : mv KE l x n c = (l.els.map fun el => ∑ a : Fin 8, if el.1 a = n then
      el.2 * ∑ j : Fin 8 × Fin 3, x (el.1 j.1) j.2 * KE j (a, c) else 0).sum := by
    unfold mv; rw [if_pos hn]
  rw [hmv]
  unfold Spec.stiffness
  revert hr
  generalize l.els = els
  intro hr
  induction els with
  | nil => simp
  | cons el els ih =>
    have h4 : ∀ m c', ((el :: els).map fun el => ∑ a : Fin 8, ∑ b : Fin 8, if el.1 a = n ∧ el.1 b = m then el.2 * KE (a, c) (b, c') else 0).sum * x m c' =
        (∑ a : Fin 8, ∑ b : Fin 8, if el.1 a = n ∧ el.1 b = m then el.2 * KE (a, c) (b, c') else 0) * x m c' +
        (els.map fun el => ∑ a : Fin 8, ∑ b : Fin 8, if el.1 a = n ∧ el.1 b = m then el.2 * KE (a, c) (b, c') else 0).sum * x m c' := by
      intro m c'
      rw [List.map_cons, List.sum_cons, add_mul]
    rw [Finset.sum_congr rfl fun m _ => Finset.sum_congr rfl fun c' _ => h4 m c', List.map_cons, List.sum_cons,
      ih fun e he => hr e (List.mem_cons_of_mem _ he), stiffness_el hs l.nn el (hr el List.mem_cons_self) x n c,
      Finset.sum_congr rfl fun m _ => Finset.sum_add_distrib, Finset.sum_add_distrib]

/-- C115: an exact solution with that matrix of the masked load is exactly a displacement in equilibrium with the load: zero at
fixed nodes, balanced at free ones. So the direct and the Krylov coarse solves solve the same equations. -/
theorem C115_coarse_solve (nu : ℝ) (h1 : -1 < nu) (h2 : nu < 1 / 2) (l : SLevel) (hr : ∀ el ∈ l.els, ∀ a, el.1 a < l.nn)
    (hin : ∀ n, l.free n → n < l.nn) (b x : Vec) (hx : ∀ n, l.nn ≤ n → x n = 0) :
    ((∀ n < l.nn, ∀ c : Fin 3, ∑ m ∈ Finset.range l.nn, ∑ c' : Fin 3,
        coarseMatrix (makeKE nu 1) l (3 * n + c) (3 * m + c') * x m c' = mask l b n c) ↔ Spec.Equilibrium (makeKE nu 1) l b x) ∧
      ((∀ n < l.nn, ∀ c : Fin 3, coarseOperator (makeKE nu 1) l x n c = mask l b n c) ↔ Spec.Equilibrium (makeKE nu 1) l b x) := by
  have hK : Elastic (makeKE nu 1) := makeKE_elastic h1 h2
  have hfix : ∀ n < l.nn, ¬ l.free n → ∀ c : Fin 3, ∑ m ∈ Finset.range l.nn, ∑ c' : Fin 3,
      coarseMatrix (makeKE nu 1) l (3 * n + c) (3 * m + c') * x m c' = x n c := by
    intro n hn hf c
    have : ∀ m ∈ Finset.range l.nn, ∑ c' : Fin 3, coarseMatrix (makeKE nu 1) l (3 * n + c) (3 * m + c') * x m c' =
        if n = m then x m c else 0 := by
      intro m hm
      rw [Finset.mem_range] at hm
      have : ∀ c' : Fin 3, coarseMatrix (makeKE nu 1) l (3 * n + c) (3 * m + c') * x m c' =
          if c = c' then (if n = m then x m c' else 0) else 0 := by
        intro c'
        rw [C115_coarse_entries l hr n m hn hm c c']
        rw [if_neg fun h => hf h.1]
        by_cases g : n = m
        · subst g
          by_cases g' : c = c' <;> simp [hf, g']
        · simp [g]
      simp only [this, Finset.sum_ite_eq, Finset.mem_univ, if_true]
    rw [Finset.sum_congr rfl this]
    exact sum_ite_index l.nn n hn fun m => x m c
  have hfree : ∀ n < l.nn, l.free n → mask l x = x → ∀ c : Fin 3, ∑ m ∈ Finset.range l.nn, ∑ c' : Fin 3,
      coarseMatrix (makeKE nu 1) l (3 * n + c) (3 * m + c') * x m c' = mv (makeKE nu 1) l x n c := by
    intro n hn hf hm c
    rw [stiffness_mv hK.symm l hr x hm n hf c]
    refine Finset.sum_congr rfl fun m hm' => Finset.sum_congr rfl fun c' _ => ?_
    rw [Finset.mem_range] at hm'
    rw [C115_coarse_entries l hr n m hn hm' c c']
    simp [hf]
  have hzero : (∀ n < l.nn, ¬ l.free n → ∀ c, x n c = 0) → mask l x = x := by
    intro h
    apply mask_of_fixed
    intro n hn c
    by_cases hlt : n < l.nn
    · exact h n hlt hn c
    · rw [hx n (by omega)]; rfl
  constructor
  · constructor
    · intro h
      have hm := hzero fun n hn hf c => by
        rw [← hfix n hn hf c, h n hn c]; simp [mask, hf]
      refine ⟨fun n hn c => mask_fixed hm hn c, fun n hn c => ?_⟩
      rw [← hfree n (hin n hn) hn hm c, h n (hin n hn) c]
      simp [mask, hn]
    · rintro ⟨g1, g2⟩ n hn c
      by_cases hf : l.free n
      · rw [hfree n hn hf (mask_of_fixed g1) c, g2 n hf c]; simp [mask, hf]
      · rw [hfix n hn hf c, g1 n hf c]; simp [mask, hf]
  · constructor
    · intro h
      have hm := hzero fun n hn hf c => by
        have := h n hn c
        simpa [coarseOperator, mask, hf, mv] using this
      refine ⟨fun n hn c => mask_fixed hm hn c, fun n hn c => ?_⟩
      have := h n (hin n hn) c
      simpa [coarseOperator, mask, hn] using this
    · rintro ⟨g1, g2⟩ n hn c
      by_cases hf : l.free n
      · simp [coarseOperator, mask, hf, g2 n hf c]
      · simp [coarseOperator, mask, hf, g1 n hf c, mv]

/-- A two-level hierarchy over two cells: the last level meets the hypotheses of both theorems. -/
example : ∃ lev, (build 2 ⟨3, 2, 2⟩ [0, 11])[1]? = some lev ∧
    (∀ el ∈ (toSLevel (fun t _ => t.2.2 == 0) lev none [1, 1 / 2]).els, ∀ a, el.1 a < (toSLevel (fun t _ => t.2.2 == 0) lev none [1, 1 / 2]).nn) ∧
    (∀ n, (toSLevel (fun t _ => t.2.2 == 0) lev none [1, 1 / 2]).free n → n < (toSLevel (fun t _ => t.2.2 == 0) lev none [1, 1 / 2]).nn) :=
  ⟨_, rfl, (C111_levels_sound 2 ⟨3, 2, 2⟩ [0, 11] (by decide) 1 _ rfl (fun t _ => t.2.2 == 0) none [1, 1 / 2] (by decide) (by simp)).range,
    (toSLevel_ends _ _ _ _).inside⟩

/-! ## Averaging to coarser levels -/

namespace Spec

/-- Positions of the cells of a level that lie in the `k`-th cell of the next: halve the three indices. -/
def children (fine coarse : Level) (k : ℕ) : Finset ℕ :=
  (Finset.range fine.cells.length).filter fun i =>
    ((fine.g.cellIjk (fine.cells.getD i 0)).1 / 2, (fine.g.cellIjk (fine.cells.getD i 0)).2.1 / 2, (fine.g.cellIjk (fine.cells.getD i 0)).2.2 / 2) =
      coarse.g.cellIjk (coarse.cells.getD k 0)

end Spec

/-- C116: a coarser design is, cell by cell, the mean of the cells it covers, and every coarse cell covers at least one. -/
theorem C116_average (L : ℕ) (g : Grid) (cells : List ℕ) (hc : ∀ e ∈ cells, e < g.numCells) (l : ℕ) (fine coarse : Level)
    (h1 : (build L g cells)[l]? = some fine) (h2 : (build L g cells)[l + 1]? = some coarse) (rho : List ℝ)
    (hlen : rho.length = fine.cells.length) :
    (coarsenRho fine coarse rho).length = coarse.cells.length ∧ ∀ k < coarse.cells.length,
      (Spec.children fine coarse k).Nonempty ∧
      (coarsenRho fine coarse rho).getD k 0 = (∑ i ∈ Spec.children fine coarse k, rho.getD i 0) / (Spec.children fine coarse k).card := by
  obtain ⟨g', cs, hcs, rfl, rfl⟩ := buildFrom_pair L g (cells.insertionSort (· ≤ ·))
    (fun e he => hc e ((mem_sortedCells cells e).mp he)) l fine coarse h1 h2
  set up := Model.unique (cs.map (parentCell g')) with hup
  have hlt := unique_lt (cs.map (parentCell g'))
  have hlen' : rho.length = cs.length := hlen
  constructor
  · simp only [coarsenRho, List.length_zipWith, segmentSum_length, min_self]
  · intro k hk
    have hk' : k < up.length := hk
    have hpos : ∀ i < cs.length, (searchsorted up (parentCell g' (cs.getD i 0)) = k ↔ i ∈ Spec.children (mkLevel g' cs) (mkLevel (coarseGrid g') up) k) := by
      intro i hi
      have hmem : parentCell g' (cs.getD i 0) ∈ up := by
        rw [hup, mem_unique, List.getD_eq_getElem _ _ hi]
        exact List.mem_map_of_mem (List.getElem_mem hi)
      have hcell : cs.getD i 0 < g'.numCells := by
        rw [List.getD_eq_getElem _ _ hi]; exact hcs _ (List.getElem_mem hi)
      have hiff : searchsorted up (parentCell g' (cs.getD i 0)) = k ↔ parentCell g' (cs.getD i 0) = up.getD k 0 := by
        have hs := searchsorted_sorted hlt hmem
        constructor
        · intro h
          rw [← hup, h, List.getElem?_eq_getElem hk'] at hs
          rw [List.getD_eq_getElem _ _ hk']
          exact (Option.some.inj hs).symm
        · intro h
          have hnd : up.Nodup := hlt.imp Nat.ne_of_lt
          rw [← hup, List.getElem?_eq_some_iff] at hs
          obtain ⟨hb, he⟩ := hs
          rw [List.getD_eq_getElem _ _ hk'] at h
          exact (hnd.getElem_inj_iff (hi := hb) (hj := hk')).mp (he.trans h)
      rw [hiff]
      simp only [Spec.children, Finset.mem_filter, Finset.mem_range]
      constructor
      · intro h
        refine ⟨hi, ?_⟩
        show _ = (coarseGrid g').cellIjk (up.getD k 0)
        rw [← h, parentCell_ijk g' _ hcell]
        rfl
      · rintro ⟨_, h⟩
        have h' : ((g'.cellIjk (cs.getD i 0)).1 / 2, (g'.cellIjk (cs.getD i 0)).2.1 / 2, (g'.cellIjk (cs.getD i 0)).2.2 / 2) =
          (coarseGrid g').cellIjk (up.getD k 0) := h
        rw [parentCell_eq, h']
        have hu : up.getD k 0 < (coarseGrid g').numCells := by
          have : up.getD k 0 ∈ up := by rw [List.getD_eq_getElem _ _ hk']; exact List.getElem_mem hk'
          rw [hup, mem_unique, List.mem_map] at this
          obtain ⟨e, he, h⟩ := this
          rw [← hup] at h
          rw [← h]
          exact parentCell_lt g' e (hcs e he)
        exact (cellId_cellIjk _ _ hu).1
    have hne : (Spec.children (mkLevel g' cs) (mkLevel (coarseGrid g') up) k).Nonempty := by
      have : up.getD k 0 ∈ up := by rw [List.getD_eq_getElem _ _ hk']; exact List.getElem_mem hk'
      rw [hup, mem_unique, List.mem_map] at this
      obtain ⟨e, he, h⟩ := this
      obtain ⟨i, hi, rfl⟩ := List.getElem_of_mem he
      refine ⟨i, (hpos i hi).mp ?_⟩
      rw [List.getD_eq_getElem _ _ hi, h, ← hup, List.getD_eq_getElem _ _ hk']
      have hm : up[k] ∈ up := List.getElem_mem hk'
      have hs := searchsorted_sorted hlt hm
      have hnd : up.Nodup := hlt.imp Nat.ne_of_lt
      rw [← hup, List.getElem?_eq_some_iff] at hs
      obtain ⟨hb, he⟩ := hs
      exact (hnd.getElem_inj_iff (hi := hb) (hj := hk')).mp he
    refine ⟨hne, ?_⟩
    have hsum : ∀ vals : List ℝ, vals.length = cs.length →
        (segmentSum vals (cs.map fun e => searchsorted up (parentCell g' e)) up.length).getD k 0 =
          ∑ i ∈ Spec.children (mkLevel g' cs) (mkLevel (coarseGrid g') up) k, vals.getD i 0 := by
      intro vals hv
      rw [segmentSum_getD _ _ _ _ hk', segSumAt_zip_range _ _ (by rw [List.length_map, hv]), List.length_map, ← Finset.sum_filter]
      refine Finset.sum_congr ?_ fun i _ => rfl
      ext i
      simp only [Finset.mem_filter, Finset.mem_range]
      constructor
      · rintro ⟨hi, h⟩
        rw [List.getD_eq_getElem _ _ (by rw [List.length_map]; exact hi), List.getElem_map, ← List.getD_eq_getElem cs 0 hi] at h
        exact (hpos i hi).mp h
      · intro h
        have hi : i < cs.length := by
          simp only [Spec.children, Finset.mem_filter, Finset.mem_range] at h
          exact h.1
        refine ⟨hi, ?_⟩
        rw [List.getD_eq_getElem _ _ (by rw [List.length_map]; exact hi), List.getElem_map, ← List.getD_eq_getElem cs 0 hi]
        exact (hpos i hi).mpr h
    have hcnt : (segmentSum ((cs.map fun e => searchsorted up (parentCell g' e)).map fun _ => (1 : ℝ))
        (cs.map fun e => searchsorted up (parentCell g' e)) up.length).getD k 0 =
          (Spec.children (mkLevel g' cs) (mkLevel (coarseGrid g') up) k).card := by
      rw [hsum _ (by simp), Finset.card_eq_sum_ones, Nat.cast_sum]
      refine Finset.sum_congr rfl fun i hi => ?_
      have hi' : i < cs.length := by
        simp only [Spec.children, Finset.mem_filter, Finset.mem_range] at hi
        exact hi.1
      rw [List.getD_eq_getElem _ _ (by simpa using hi')]
      simp
    have hc1 : (1 : ℝ) ≤ (Spec.children (mkLevel g' cs) (mkLevel (coarseGrid g') up) k).card := by
      exact_mod_cast Finset.card_pos.mpr hne
    have e := hsum rho hlen'
    show (List.zipWith (fun a c => a * (1 / max c 1)) (segmentSum rho (cs.map fun e => searchsorted up (parentCell g' e)) up.length)
      (segmentSum ((cs.map fun e => searchsorted up (parentCell g' e)).map fun _ => (1 : ℝ))
        (cs.map fun e => searchsorted up (parentCell g' e)) up.length)).getD k 0 = _
    rw [List.getD_eq_getElem _ _ (by simp only [List.length_zipWith, segmentSum_length, min_self]; exact hk'), List.getElem_zipWith,
      ← List.getD_eq_getElem _ 0, ← List.getD_eq_getElem _ 0, e, hcnt, max_eq_left hc1]
    ring

/-- C116: so designs between two bounds stay between them on every level: the stiffnesses stay positive. -/
theorem C116_bounds (L : ℕ) (g : Grid) (cells : List ℕ) (hc : ∀ e ∈ cells, e < g.numCells) (l : ℕ) (fine coarse : Level)
    (h1 : (build L g cells)[l]? = some fine) (h2 : (build L g cells)[l + 1]? = some coarse) (rho : List ℝ)
    (hlen : rho.length = fine.cells.length) (lo hi : ℝ) (hb : ∀ r ∈ rho, lo ≤ r ∧ r ≤ hi) :
    ∀ r ∈ coarsenRho fine coarse rho, lo ≤ r ∧ r ≤ hi := by
  obtain ⟨hl, hk⟩ := C116_average L g cells hc l fine coarse h1 h2 rho hlen
  intro r hr
  obtain ⟨k, hk', rfl⟩ := List.getElem_of_mem hr
  rw [← List.getD_eq_getElem _ 0 hk']
  obtain ⟨hne, he⟩ := hk k (hl ▸ hk')
  rw [he]
  have hpos : (0 : ℝ) < (Spec.children fine coarse k).card := by exact_mod_cast Finset.card_pos.mpr hne
  have hmem : ∀ i ∈ Spec.children fine coarse k, lo ≤ rho.getD i 0 ∧ rho.getD i 0 ≤ hi := by
    intro i hi
    simp only [Spec.children, Finset.mem_filter, Finset.mem_range] at hi
    rw [List.getD_eq_getElem _ _ (by omega)]
    exact hb _ (List.getElem_mem _)
  constructor
  · rw [le_div_iff₀ hpos]
    have := Finset.card_nsmul_le_sum _ _ lo fun i hi => (hmem i hi).1
    rw [nsmul_eq_mul] at this
    linarith
  · rw [div_le_iff₀ hpos]
    have := Finset.sum_le_card_nsmul _ _ hi fun i hi => (hmem i hi).2
    rw [nsmul_eq_mul] at this
    linarith

example : ((build 2 ⟨3, 1, 1⟩ [0, 1, 2])[0]?.map (·.cells)) = some [0, 1, 2] ∧
    ((build 2 ⟨3, 1, 1⟩ [0, 1, 2])[1]?.map (·.cells)) = some [0, 1] := by decide

/-! ## Loads -/

/-- C116: a load on nodes of the band acts on exactly those nodes, along exactly that axis, once each. -/
theorem C116_load (L : ℕ) (g : Grid) (cells : List ℕ) (hc : ∀ e ∈ cells, e < g.numCells) (lev : Level)
    (hlev : (build L g cells)[0]? = some lev) (ids : List ℕ) (hids : ∀ i ∈ ids, i ∈ lev.nodes) (comp : Fin 3) (value : ℝ) :
    ∃ f, loadVector lev ids comp value = .ok f ∧ ∀ n (hn : n < lev.nodes.length) (c : Fin 3),
      f n c = if lev.nodes[n] ∈ ids ∧ c = comp then value else 0 := by
  obtain ⟨_, _, _, _, hlt, _⟩ := (C109_levels L g cells hc).2 0 lev hlev
  have hall : ((compactNodes lev ids).all fun n => decide (n < lev.nodes.length)) = true := by
    simp only [compactNodes, List.all_eq_true, List.mem_map, decide_eq_true_eq]
    rintro n ⟨i, hi, rfl⟩
    exact (searchsorted_mem hlt (hids i hi)).1
  refine ⟨fun n c => if n ∈ compactNodes lev ids ∧ c = comp then value else 0, by simp only [loadVector, hall, if_true], fun n hn c => ?_⟩
  have hmem : n ∈ compactNodes lev ids ↔ lev.nodes[n] ∈ ids := by
    simp only [compactNodes, List.mem_map]
    have hnd : lev.nodes.Nodup := hlt.imp Nat.ne_of_lt
    constructor
    · rintro ⟨i, hi, rfl⟩
      have := searchsorted_sorted hlt (hids i hi)
      rw [List.getElem?_eq_getElem hn] at this
      rw [Option.some.inj this]
      exact hi
    · intro h
      refine ⟨_, h, ?_⟩
      have := searchsorted_sorted hlt (hids _ h)
      rw [List.getElem?_eq_some_iff] at this
      obtain ⟨hb, he⟩ := this
      exact (hnd.getElem_inj_iff (hi := hb) (hj := hn)).mp he
  simp only [hmem]

/-- C116, what is left to the caller: a node outside the band is not refused unless it lies beyond the last one. The load then
acts, without an error, on another node: here a load on node 0 of a band made of the middle cell acts on node 4. -/
theorem C116_load_off_band : ∃ lev, (build 1 ⟨3, 1, 1⟩ [1])[0]? = some lev ∧ 0 ∉ lev.nodes ∧ 14 ∉ lev.nodes ∧
    (∃ f, loadVector lev [0] 2 (-1) = .ok f ∧ f 0 2 = -1 ∧ lev.nodes[0]? = some 4) ∧
    loadVector lev [14] 2 (-1) = .error .indexError := by
  refine ⟨_, rfl, by decide, by decide, ⟨_, rfl, ?_, by decide⟩, rfl⟩
  have : (0 : ℕ) ∈ compactNodes (mkLevel ⟨3, 1, 1⟩ [1]) [0] := by decide
  exact if_pos ⟨this, rfl⟩

example : ∃ lev, (build 1 ⟨2, 1, 1⟩ [0, 1])[0]? = some lev ∧ ∀ i ∈ [8, 9], i ∈ lev.nodes := ⟨_, rfl, by decide⟩

/-! ## All levels at once -/

theorem rhosFrom_spec : ∀ (ls : List Level) (rho : List ℝ), (rhosFrom ls rho).length = ls.length ∧
    (ls ≠ [] → (rhosFrom ls rho)[0]? = some rho) ∧
    ∀ l fine coarse r, ls[l]? = some fine → ls[l + 1]? = some coarse → (rhosFrom ls rho)[l]? = some r →
      (rhosFrom ls rho)[l + 1]? = some (coarsenRho fine coarse r)
  | [], _ => by simp [rhosFrom]
  | [_], rho => by
    refine ⟨rfl, fun _ => rfl, fun l fine coarse r h1 h2 => ?_⟩
    simp at h2
  | f :: c :: rest, rho => by
    obtain ⟨a1, a2, a3⟩ := rhosFrom_spec (c :: rest) (coarsenRho f c rho)
    refine ⟨by simp [rhosFrom, a1], fun _ => by simp [rhosFrom], fun l fine coarse r h1 h2 h3 => ?_⟩
    cases l with
    | zero =>
      simp only [rhosFrom, List.getElem?_cons_zero, Option.some.injEq, zero_add, List.getElem?_cons_succ] at *
      subst h1 h2 h3
      exact a2 (by simp)
    | succ l =>
      simp only [rhosFrom, List.getElem?_cons_succ] at *
      exact a3 l fine coarse r h1 h2 h3

/-- **C116, all levels.** The designs the solver uses: one list per level, of the length of the band there; the given design on the
finest; and on each other level, cell by cell, the mean over the cells of the level below that it covers. A design between two
bounds stays between them on every level. -/
theorem C116_every_level (L : ℕ) (g : Grid) (cells : List ℕ) (hc : ∀ e ∈ cells, e < g.numCells) (rho : List ℝ)
    (hlen : rho.length = cells.length) (lo hi : ℝ) (hb : ∀ r ∈ rho, lo ≤ r ∧ r ≤ hi) :
    (rhosFrom (build L g cells) rho).length = L ∧
    ∀ l lev, (build L g cells)[l]? = some lev → ∃ r, (rhosFrom (build L g cells) rho)[l]? = some r ∧
      r.length = lev.cells.length ∧ (∀ x ∈ r, lo ≤ x ∧ x ≤ hi) ∧ (l = 0 → r = rho) ∧
      ∀ coarse, (build L g cells)[l + 1]? = some coarse → ∃ r', (rhosFrom (build L g cells) rho)[l + 1]? = some r' ∧
        ∀ k < coarse.cells.length,
          r'.getD k 0 = (∑ i ∈ Spec.children lev coarse k, r.getD i 0) / (Spec.children lev coarse k).card := by
  obtain ⟨a1, a2, a3⟩ := rhosFrom_spec (build L g cells) rho
  obtain ⟨bl, _⟩ := C109_levels L g cells hc
  refine ⟨by rw [a1, bl], fun l => ?_⟩
  have main : ∀ l lev, (build L g cells)[l]? = some lev → ∃ r, (rhosFrom (build L g cells) rho)[l]? = some r ∧
      r.length = lev.cells.length ∧ (∀ x ∈ r, lo ≤ x ∧ x ≤ hi) ∧ (l = 0 → r = rho) := by
    intro l
    induction l with
    | zero =>
      intro lev hl
      have hne : build L g cells ≠ [] := by intro h; simp [h] at hl
      refine ⟨rho, a2 hne, ?_, hb, fun _ => rfl⟩
      have hL : L ≠ 0 := by rintro rfl; simp [build, buildFrom] at hl
      obtain ⟨L, rfl⟩ := Nat.exists_eq_succ_of_ne_zero hL
      simp only [build, buildFrom, List.getElem?_cons_zero, Option.some.injEq] at hl
      rw [← hl, hlen]
      simp [mkLevel]
    | succ l ih =>
      intro lev hl
      have hlt : l < (build L g cells).length := by
        have := (List.getElem?_eq_some_iff.mp hl).1
        omega
      obtain ⟨r, h1, h2, h3, _⟩ := ih _ (List.getElem?_eq_getElem hlt)
      refine ⟨_, a3 l _ lev r (List.getElem?_eq_getElem hlt) hl h1, ?_, ?_, by simp⟩
      · exact (C116_average L g cells hc l _ lev (List.getElem?_eq_getElem hlt) hl r h2).1
      · exact C116_bounds L g cells hc l _ lev (List.getElem?_eq_getElem hlt) hl r h2 lo hi h3
  intro lev hl
  obtain ⟨r, h1, h2, h3, h4⟩ := main l lev hl
  refine ⟨r, h1, h2, h3, h4, fun coarse hco => ⟨_, a3 l lev coarse r hl hco h1, fun k hk => ?_⟩⟩
  exact ((C116_average L g cells hc l lev coarse hl hco r h2).2 k hk).2

/-- C116, what the mean is not: two levels up, the design is the mean of the two means below, not of the three band cells covered. -/
theorem C116_not_overall_mean : ∃ r, (rhosFrom (build 3 ⟨4, 1, 1⟩ [0, 1, 2]) [1, 1, 0])[2]? = some r ∧
    r.getD 0 0 = 1 / 2 ∧ (1 / 2 : ℝ) ≠ (1 + 1 + 0) / 3 := by
  have h0 := C116_every_level 3 ⟨4, 1, 1⟩ [0, 1, 2] (by decide) [1, 1, 0] rfl 0 1 (by intro r hr; simp at hr; rcases hr with rfl | rfl <;> norm_num)
  obtain ⟨r0, a0, -, -, e0, b0⟩ := h0.2 0 (mkLevel ⟨4, 1, 1⟩ [0, 1, 2]) rfl
  obtain ⟨r1, a1, c1⟩ := b0 (mkLevel ⟨2, 1, 1⟩ [0, 1]) rfl
  obtain ⟨r1', a1', -, -, -, b1⟩ := h0.2 1 (mkLevel ⟨2, 1, 1⟩ [0, 1]) rfl
  obtain ⟨r2, a2, c2⟩ := b1 (mkLevel ⟨1, 1, 1⟩ [0]) rfl
  rw [a1] at a1'
  obtain rfl := Option.some.inj a1'
  obtain rfl := e0 rfl
  refine ⟨r2, a2, ?_, by norm_num⟩
  rw [c2 0 (by decide), show Spec.children (mkLevel ⟨2, 1, 1⟩ [0, 1]) (mkLevel ⟨1, 1, 1⟩ [0]) 0 = {0, 1} by decide +kernel,
    Finset.sum_pair (by decide), c1 0 (by decide), c1 1 (by decide),
    show Spec.children (mkLevel ⟨4, 1, 1⟩ [0, 1, 2]) (mkLevel ⟨2, 1, 1⟩ [0, 1]) 0 = {0, 1} by decide +kernel,
    show Spec.children (mkLevel ⟨4, 1, 1⟩ [0, 1, 2]) (mkLevel ⟨2, 1, 1⟩ [0, 1]) 1 = {2} by decide +kernel]
  norm_num

/-- **C113, shapes.** The padded arrays of a level have the least multiple of the bucket that holds them (and at least one bucket):
bands whose sizes lie between the same multiples get arrays of the same shape, and reuse the compiled solve. -/
theorem C113_shapes (l : SLevel) (bucket : ℕ) (hk : 1 ≤ bucket) : ∀ n m, (n = l.els.length ∧ m = (l.pad bucket).els.length) ∨
    (n = l.nn ∧ m = (l.pad bucket).nn) → bucket ∣ m ∧ n ≤ m ∧ 1 ≤ m ∧ m < max 1 n + bucket := by
  have hcap : ∀ n, bucket ∣ cap n bucket ∧ n ≤ cap n bucket ∧ 1 ≤ cap n bucket ∧ cap n bucket < max 1 n + bucket := by
    intro n
    unfold cap
    have h1 := Nat.div_add_mod (max 1 n + bucket - 1) bucket
    have h2 := Nat.mod_lt (max 1 n + bucket - 1) (show 0 < bucket by omega)
    rw [mul_comm] at h1
    refine ⟨Dvd.intro_left _ rfl, ?_, ?_, ?_⟩ <;> omega
  intro n m h
  rcases h with ⟨rfl, rfl⟩ | ⟨rfl, rfl⟩
  · have := hcap l.els.length
    have e : (l.pad bucket).els.length = cap l.els.length bucket := by
      simp [SLevel.pad]
      omega
    rw [e]
    exact this
  · exact hcap l.nn

example : cap 700 512 = 1024 ∧ cap 1024 512 = 1024 ∧ cap 0 512 = 512 := by decide

/-! ## The Krylov solve of the last level -/

/-- C115: on arrays that vanish at fixed nodes, the only ones a Krylov method started from zero meets (operator and preconditioner do not
leave them), the operator is that of the matrix handed to the direct solver, symmetric and without negative energy; an array without
energy moves every cell rigidly, so a structure whose supports exclude that gives a positive definite operator. The preconditioner is
symmetric and positive definite. So the conjugate gradient method applies. -/
theorem C115_krylov_definite (nu : ℝ) (h1 : -1 < nu) (h2 : nu < 1 / 2) (l : SLevel) (hl : Spec.Sound l) :
    (∀ x, mask l x = x → mask l (coarseOperator (makeKE nu 1) l x) = coarseOperator (makeKE nu 1) l x ∧
      mask l (coarsePrecond (makeKE nu 1) l x) = coarsePrecond (makeKE nu 1) l x ∧
      0 ≤ dot l.nn x (coarseOperator (makeKE nu 1) l x) ∧
      (dot l.nn x (coarseOperator (makeKE nu 1) l x) = 0 → ∀ el ∈ l.els, Spec.RigidMotion fun i => x (el.1 i.1) i.2) ∧
      (x ≠ 0 → 0 < dot l.nn x (coarsePrecond (makeKE nu 1) l x)) ∧
      ∀ n < l.nn, ∀ c : Fin 3, coarseOperator (makeKE nu 1) l x n c =
        ∑ m ∈ Finset.range l.nn, ∑ c' : Fin 3, coarseMatrix (makeKE nu 1) l (3 * n + c) (3 * m + c') * x m c') ∧
    ∀ x y, mask l x = x → mask l y = y →
      dot l.nn x (coarseOperator (makeKE nu 1) l y) = dot l.nn y (coarseOperator (makeKE nu 1) l x) ∧
      dot l.nn x (coarsePrecond (makeKE nu 1) l y) = dot l.nn y (coarsePrecond (makeKE nu 1) l x) := by
  have hK : Elastic (makeKE nu 1) := makeKE_elastic h1 h2
  have hop : ∀ x, mask l x = x → coarseOperator (makeKE nu 1) l x = mv (makeKE nu 1) l x := by
    intro x hx
    funext n c
    unfold coarseOperator
    by_cases hf : l.free n
    · simp [hf]
    · simp [hf, mask_fixed hx hf c]
  have hpre : ∀ x, mask l x = x → ∀ n, ¬ l.free n → coarsePrecond (makeKE nu 1) l x n = 0 := by
    intro x hx n hf
    have : x n = 0 := funext fun c => mask_fixed hx hf c
    funext c
    simp [coarsePrecond, this]
  have hsymD : ∀ n, (diagBlock (makeKE nu 1) l n)ᵀ = diagBlock (makeKE nu 1) l n := by
    intro n
    unfold diagBlock
    induction l.els with
    | nil => simp
    | cons el els ih =>
      rw [List.map_cons, List.sum_cons, Matrix.transpose_add, ih, Matrix.transpose_sum]
      congr 1
      refine Finset.sum_congr rfl fun a _ => ?_
      split_ifs
      · rw [Matrix.transpose_smul]
        congr 1
        ext c c'
        exact hK.symm.apply (a, c) (a, c')
      · simp
  have hdinv : ∀ n, l.free n → ∀ w : Fin 3 → ℝ, w ≠ 0 → 0 < w ⬝ᵥ (dinv (makeKE nu 1) l n *ᵥ w) := by
    intro n hf w hw
    have hdet := diagBlock_det hK l hl.modulus n (hl.covered n hf).2
    have hD : dinv (makeKE nu 1) l n = (diagBlock (makeKE nu 1) l n)⁻¹ := by simp [dinv, hf]
    rw [hD]
    set D := diagBlock (makeKE nu 1) l n with hDD
    have e1 : D *ᵥ (D⁻¹ *ᵥ w) = w := by rw [mulVec_mulVec, mul_nonsing_inv _ hdet, one_mulVec]
    have hne : D⁻¹ *ᵥ w ≠ 0 := fun h => hw (by rw [← e1, h, mulVec_zero])
    have e2 : w ⬝ᵥ (D⁻¹ *ᵥ w) = (D⁻¹ *ᵥ w) ⬝ᵥ (D *ᵥ (D⁻¹ *ᵥ w)) := by rw [e1, dotProduct_comm]
    rw [e2]
    rcases (diagBlock_nonneg hK l hl.modulus n (D⁻¹ *ᵥ w)).lt_or_eq with h | h
    · exact h
    · exact absurd (diagBlock_pos hK l hl.modulus n (hl.covered n hf).2 _ h.symm) hne
  refine ⟨fun x hx => ⟨?_, ?_, ?_, ?_, ?_, ?_⟩, fun x y hx hy => ⟨?_, ?_⟩⟩
  · rw [hop x hx, mask_mv]
  · exact mask_of_fixed fun n hf c => by rw [hpre x hx n hf]; rfl
  · rw [hop x hx, dot_mv l hl.range x x hx]
    apply List.sum_nonneg
    intro e he
    obtain ⟨el, hel, rfl⟩ := List.mem_map.1 he
    exact mul_nonneg (hl.modulus el hel).le (hK.nonneg _)
  · intro h0 el hel
    rw [hop x hx, dot_mv l hl.range x x hx] at h0
    have hnn : ∀ e ∈ l.els.map (fun el => el.2 * ((fun i : Fin 8 × Fin 3 => x (el.1 i.1) i.2) ⬝ᵥ (makeKE nu 1 *ᵥ fun i : Fin 8 × Fin 3 => x (el.1 i.1) i.2))), 0 ≤ e := by
      intro e he
      obtain ⟨el, hel, rfl⟩ := List.mem_map.1 he
      exact mul_nonneg (hl.modulus el hel).le (hK.nonneg _)
    have hz := List.all_zero_of_le_zero_le_of_sum_eq_zero hnn h0 (List.mem_map.mpr ⟨el, hel, rfl⟩)
    exact hK.rigid _ ((mul_eq_zero.1 hz).resolve_left (hl.modulus el hel).ne')
  · intro hne
    obtain ⟨n, hn⟩ := Function.ne_iff.1 hne
    have hf : l.free n := by
      by_contra hf
      exact hn (funext fun c => mask_fixed hx hf c)
    have hnn : ∀ k, 0 ≤ ∑ c, x k c * coarsePrecond (makeKE nu 1) l x k c := by
      intro k
      by_cases hk : l.free k
      · by_cases h0 : x k = 0
        · rw [h0]; simp
        · exact (hdinv k hk (x k) h0).le
      · rw [hpre x hx k hk]; simp
    exact Finset.sum_pos' (fun k _ => hnn k) ⟨n, Finset.mem_range.2 (hl.covered n hf).1, hdinv n hf (x n) hn⟩
  · intro n hn c
    rw [hop x hx]
    by_cases hf : l.free n
    · rw [stiffness_mv hK.symm l hl.range x hx n hf c]
      refine Finset.sum_congr rfl fun m hm' => Finset.sum_congr rfl fun c' _ => ?_
      rw [Finset.mem_range] at hm'
      rw [C115_coarse_entries l hl.range n m hn hm' c c']
      simp [hf]
    · have : mv (makeKE nu 1) l x n c = 0 := by simp [mv, hf]
      rw [this]
      symm
      refine Finset.sum_eq_zero fun m hm => Finset.sum_eq_zero fun c' _ => ?_
      rw [Finset.mem_range] at hm
      rw [C115_coarse_entries l hl.range n m hn hm c c', if_neg fun h => hf h.1]
      by_cases g : n = m
      · subst g
        rw [mask_fixed hx hf c', mul_zero]
      · simp [g]
  · rw [hop x hx, hop y hy, dot_mv l hl.range y x hx, dot_mv l hl.range x y hy, levelForm_symm hK.symm]
  · unfold dot
    refine Finset.sum_congr rfl fun n _ => ?_
    by_cases hf : l.free n
    · have hD : (dinv (makeKE nu 1) l n)ᵀ = dinv (makeKE nu 1) l n := by
        simp only [dinv, hf, if_true]
        rw [transpose_nonsing_inv, hsymD]
      change x n ⬝ᵥ (dinv (makeKE nu 1) l n *ᵥ y n) = y n ⬝ᵥ (dinv (makeKE nu 1) l n *ᵥ x n)
      rw [dotProduct_mulVec, ← mulVec_transpose, hD, dotProduct_comm]
    · rw [hpre x hx n hf, hpre y hy n hf]; simp

/-- C115: with Krylov options the last level is solved by the method named ("auto" is conjugate gradients), and whatever the method
returns, fixed nodes get zero; an exact answer is an equilibrium. Without options, or with direct ones, cuDSS is used, and its absence is
reported at once; other options are refused. -/
theorem C115_coarse_choice (lib : KrylovLib) (nu : ℝ) (h1 : -1 < nu) (h2 : nu < 1 / 2) (l : SLevel)
    (hr : ∀ el ∈ l.els, ∀ a, el.1 a < l.nn) (hin : ∀ n, l.free n → n < l.nn) (b : Vec) (haveCudss : Bool) (s : String) (tol : ℝ) (maxit : ℕ) :
    (parseCoarse haveCudss .none = parseCoarse haveCudss .direct) ∧ (parseCoarse haveCudss .none = .ok .cudss ↔ haveCudss = true) ∧
    (parseCoarse haveCudss .none = .error .importError ↔ haveCudss = false) ∧ parseCoarse haveCudss .other = .error .valueError ∧
    ∃ name meth, parseCoarse haveCudss (.krylov s tol maxit) = .ok (.krylov name tol maxit) ∧
      ((s = "auto" ∨ s = "cg") → meth = lib.cg) ∧ (s = "bicgstab" → meth = lib.bicgstab) ∧ (s = "gmres" → meth = lib.gmres) ∧
      (∀ n, ¬ l.free n → ∀ c, coarseSolveCg lib (makeKE nu 1) name tol maxit l b n c = 0) ∧
      ∀ x, meth (coarseOperator (makeKE nu 1) l) (coarsePrecond (makeKE nu 1) l) (mask l b) tol maxit = x → (∀ n, l.nn ≤ n → x n = 0) →
        (∀ n < l.nn, ∀ c : Fin 3, coarseOperator (makeKE nu 1) l x n c = mask l b n c) →
        Spec.Equilibrium (makeKE nu 1) l b (coarseSolveCg lib (makeKE nu 1) name tol maxit l b) := by
  refine ⟨rfl, by cases haveCudss <;> simp [parseCoarse], by cases haveCudss <;> simp [parseCoarse], rfl, if s ≠ "auto" then s else "cg",
    if (if s ≠ "auto" then s else "cg") = "bicgstab" then lib.bicgstab else if (if s ≠ "auto" then s else "cg") = "gmres" then lib.gmres else lib.cg,
    rfl, ?_, ?_, ?_, ?_, ?_⟩
  · rintro (rfl | rfl) <;> simp
  · rintro rfl; simp
  · rintro rfl; simp
  · intro n hf c
    simp [coarseSolveCg, mask, hf]
  · intro x hx h0 hA
    have he := (C115_coarse_solve nu h1 h2 l hr hin b x h0).2.1 hA
    have hm : mask l x = x := mask_of_fixed he.1
    unfold coarseSolveCg
    rw [hx, hm]
    exact he
/-- The last level of the hierarchy above meets the hypotheses of `C115_krylov_definite`. -/
example : ∃ lev, (build 2 ⟨3, 2, 2⟩ [0, 11])[1]? = some lev ∧ Spec.Sound (toSLevel (fun t _ => t.2.2 == 0) lev none [1, 1 / 2]) :=
  ⟨_, rfl, C111_levels_sound 2 ⟨3, 2, 2⟩ [0, 11] (by decide) 1 _ rfl (fun t _ => t.2.2 == 0) none [1, 1 / 2] (by decide) (by simp)⟩
/-- C114: when the supports leave no rigid motion of the cells, every load has exactly one displacement in equilibrium with it, so
the exact solves that the gradients assume exist. -/
theorem C114_solvable (nu : ℝ) (h1 : -1 < nu) (h2 : nu < 1 / 2) (l : SLevel) (hl : Spec.Sound l)
    (hsup : ∀ x : Vec, (∀ n, ¬ l.free n → ∀ c, x n c = 0) → (∀ el ∈ l.els, Spec.RigidMotion fun i => x (el.1 i.1) i.2) → x = 0) (load : Vec) :
    ∃! v, Spec.Equilibrium (makeKE nu 1) l load v := by
  have hin : ∀ n, l.free n → n < l.nn := fun n hn => (hl.covered n hn).1
  have hker : ∀ v, Spec.Equilibrium (makeKE nu 1) l 0 v → v = 0 := by
    intro v hv
    have hm : mask l v = v := mask_of_fixed hv.1
    obtain ⟨_, _, _, hz, _, _⟩ := (C115_krylov_definite nu h1 h2 l hl).1 v hm
    refine hsup v hv.1 (hz ?_)
    unfold dot
    refine Finset.sum_eq_zero fun n _ => Finset.sum_eq_zero fun c _ => ?_
    unfold coarseOperator
    by_cases hn : l.free n
    · rw [hv.2 n hn c]; simp [hn]
    · rw [hv.1 n hn c, zero_mul]
  let ext : (Fin l.nn → Fin 3 → ℝ) → Vec := fun x n c => if h : n < l.nn then x ⟨n, h⟩ c else 0
  have hadd : ∀ x y, ext (x + y) = ext x + ext y := by
    intro x y; funext n c; simp only [ext, Pi.add_apply]; split_ifs <;> simp
  have hsmul : ∀ (t : ℝ) x, ext (t • x) = t • ext x := by
    intro t x; funext n c; simp only [ext, Pi.smul_apply, smul_eq_mul]; split_ifs <;> simp
  let T : (Fin l.nn → Fin 3 → ℝ) →ₗ[ℝ] (Fin l.nn → Fin 3 → ℝ) :=
    { toFun := fun x n c => coarseOperator (makeKE nu 1) l (ext x) n c
      map_add' := fun x y => by
        funext n c
        simp only [coarseOperator, hadd, mv_add, Pi.add_apply]
        split_ifs <;> ring
      map_smul' := fun t x => by
        funext n c
        simp only [coarseOperator, hsmul, mv_smul, Pi.smul_apply, smul_eq_mul, RingHom.id_apply]
        split_ifs <;> ring }
  have hT : ∀ x b, (∀ n c, T x n c = mask l b n c) → Spec.Equilibrium (makeKE nu 1) l b (ext x) := by
    intro x b h
    refine ((C115_coarse_solve nu h1 h2 l hl.range hin b (ext x) ?_).2).mp fun n hn c => h ⟨n, hn⟩ c
    intro n hn; funext c; simp only [ext, dif_neg (not_lt.mpr hn), Pi.zero_apply]
  have hinj : Function.Injective T := by
    rw [← LinearMap.ker_eq_bot, LinearMap.ker_eq_bot']
    intro x hx
    have := hker _ (hT x 0 fun n c => by rw [hx]; simp [mask])
    funext n c
    have h := congrFun (congrFun this n) c
    simpa [ext] using h
  obtain ⟨x, hx⟩ := LinearMap.injective_iff_surjective.mp hinj (fun n c => mask l load n c)
  refine ⟨ext x, hT x load fun n c => by rw [hx], fun v hv => ?_⟩
  have hE := hT x load fun n c => by rw [hx]
  refine sub_eq_zero.mp (hker _ ⟨fun n hn c => ?_, fun n hn c => ?_⟩)
  · rw [Pi.sub_apply, Pi.sub_apply, hv.1 n hn c, hE.1 n hn c, sub_zero]
  · rw [sub_eq_add_neg, ← neg_one_smul ℝ, mv_add, mv_smul]
    simp [hv.2 n hn c, hE.2 n hn c]

/-- One cell held at the four nodes of its lower face has no rigid motion left. -/
theorem held_cell (E : ℝ) (x : Vec) (hx : ∀ n, ¬ (toSLevel (fun t _ => t.2.2 == 0) (mkLevel ⟨1, 1, 1⟩ [0]) none [E]).free n → ∀ c, x n c = 0)
    (hr : ∀ el ∈ (toSLevel (fun t _ => t.2.2 == 0) (mkLevel ⟨1, 1, 1⟩ [0]) none [E]).els, Spec.RigidMotion fun i => x (el.1 i.1) i.2) :
    x = 0 := by
  have hids : ∀ a : Fin 8, ((mkLevel ⟨1, 1, 1⟩ [0]).ncid.getD 0 []).getD a 0 = a := by decide
  have hel := hr ((fun a : Fin 8 => (((mkLevel ⟨1, 1, 1⟩ [0]).ncid.getD 0 []).getD a 0), E)) (by
    simp [toSLevel, mkLevel])
  obtain ⟨t, w, h⟩ := hel
  simp only [hids] at h
  have hfix : ∀ n ∈ [0, 2, 4, 6], ∀ c, x n c = 0 := by
    intro n hn c
    refine hx n ?_ c
    have : ∀ n ∈ [0, 2, 4, 6], (decide (n < (mkLevel ⟨1, 1, 1⟩ [0]).nodes.length) && freeNode (fun t _ => t.2.2 == 0)
      (mkLevel ⟨1, 1, 1⟩ [0]).g ((mkLevel ⟨1, 1, 1⟩ [0]).nodes.getD n 0)) = false := by decide
    have := this n hn
    simp only [toSLevel]
    rw [this]; simp
  have e0 := h 0
  have e2 := h 2
  have e4 := h 4
  have c0 : corner 0 = (0, 0, 0) := by decide
  have c2 : corner 2 = (0, 1, 0) := by decide
  have c4 : corner 4 = (1, 0, 0) := by decide
  simp only [c0, c2, c4, Fin.val_zero, Nat.cast_zero, Nat.cast_one, show ((2 : Fin 8) : ℕ) = 2 from rfl, show ((4 : Fin 8) : ℕ) = 4 from rfl,
    hfix 0 (by simp), hfix 2 (by simp), hfix 4 (by simp)] at e0 e2 e4
  have t0 : t 0 = 0 := by linarith [e0.1]
  have t1 : t 1 = 0 := by linarith [e0.2.1]
  have t2 : t 2 = 0 := by linarith [e0.2.2]
  have w0 : w 0 = 0 := by linarith [e2.2.2]
  have w1 : w 1 = 0 := by linarith [e4.2.2]
  have w2 : w 2 = 0 := by linarith [e2.1]
  funext n c
  by_cases hn : n < 8
  · have := h ⟨n, hn⟩
    simp only [t0, t1, t2, w0, w1, w2, zero_mul, sub_zero, add_zero] at this
    rcases (by clear * -; revert c; decide : c = 0 ∨ c = 1 ∨ c = 2) with rfl | rfl | rfl
    · exact this.1
    · exact this.2.1
    · exact this.2.2
  · refine hx n ?_ c
    have : (mkLevel ⟨1, 1, 1⟩ [0]).nodes.length = 8 := by decide
    simp only [toSLevel, this]
    simp [hn]

/-- It meets the hypotheses for every positive modulus. -/
example (E : ℝ) (hE : 0 < E) (load : Vec) :
    ∃! v, Spec.Equilibrium (makeKE (1 / 4) 1) (toSLevel (fun t _ => t.2.2 == 0) (mkLevel ⟨1, 1, 1⟩ [0]) none [E]) load v := by
  have hsound := C111_levels_sound 1 ⟨1, 1, 1⟩ [0] (by decide) 0 (mkLevel ⟨1, 1, 1⟩ [0]) rfl (fun t _ => t.2.2 == 0) none [E] rfl (by simpa using hE)
  exact C114_solvable (1 / 4) (by norm_num) (by norm_num) _ hsound (held_cell E) load

end Verif.Props
