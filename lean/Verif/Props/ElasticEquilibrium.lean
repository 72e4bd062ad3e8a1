import Verif.Props.PlateMesh
import Mathlib.LinearAlgebra.FiniteDimensional.Lemmas

/-!
# Existence of elastic equilibria (C160)

The residual of isotropic linear elasticity under dead loads is affine in the displacement, so a braced problem has an equilibrium for
every load and all boundary values. Nothing is assumed of the tangent here.
-/

namespace Verif.Props

open Verif.Model
open Spec.Amg (Skew)
open Spec.WellPosed

namespace Spec.WellPosed
variable {K : Type*} [Field K]

/-- The residual is an affine function of the displacement. -/
def AffineResidual (d : Discretization K (List (QPoint K)) (List (QPoint K))) : Prop :=
  ∀ (s : K) (u v v' w : List K), (∀ j, w.getD j 0 = u.getD j 0 + s * (v.getD j 0 - v'.getD j 0)) →
    ∀ i < d.p.n, (d.residualAt w).getD i 0 = (d.residualAt u).getD i 0 + s * ((d.residualAt v).getD i 0 - (d.residualAt v').getD i 0)

end Spec.WellPosed

section affine
variable {K : Type*} [Field K]

theorem sum_comb {ι : Type*} (l : List ι) (s : K) (f g p q : ι → K) (h : ∀ a, f a = g a + s * (p a - q a)) :
    (l.map f).sum = (l.map g).sum + s * ((l.map p).sum - (l.map q).sum) := by
  induction l with
  | nil => simp
  | cons a l ih =>
    simp only [List.map_cons, List.sum_cons, ih, h a]
    ring

theorem overCells_comb (d : Discretization K (List (QPoint K)) (List (QPoint K))) (s : K) (f g p q : List (List ℕ) → QPoint K → K)
    (h : ∀ nodes x, f nodes x = g nodes x + s * (p nodes x - q nodes x)) :
    overCells d f = overCells d g + s * (overCells d p - overCells d q) :=
  sum_comb _ s _ _ _ _ fun _ => sum_comb _ s _ _ _ _ fun _ => h _ _

theorem fieldGrad_comb (fs : List Verif.Spec.Field) (s : K) (u v v' w : List K)
    (h : ∀ j, w.getD j 0 = u.getD j 0 + s * (v.getD j 0 - v'.getD j 0)) (i : ℕ) (nodes : List ℕ) (G : List (List K)) (c k : ℕ) :
    Verif.Spec.fieldGrad fs w i nodes G c k = Verif.Spec.fieldGrad fs u i nodes G c k +
      s * (Verif.Spec.fieldGrad fs v i nodes G c k - Verif.Spec.fieldGrad fs v' i nodes G c k) := by
  unfold Verif.Spec.fieldGrad
  rw [← Finset.sum_sub_distrib, Finset.mul_sum, ← Finset.sum_add_distrib]
  refine Finset.sum_congr rfl fun a _ => ?_
  rw [h]
  ring

/-- The power of the isotropic stress of `F` on `G`. -/
def elasticPower (dim : ℕ) (l m : K) (F G : ℕ → ℕ → K) : K :=
  ∑ c ∈ Finset.range dim, ∑ k ∈ Finset.range dim, (l * (∑ a ∈ Finset.range dim, F a a) * (if c = k then 1 else 0) + m * (F c k + F k c)) * G c k

theorem elasticPower_comb (dim : ℕ) (l m s : K) (F₀ F₁ F₂ F₃ G : ℕ → ℕ → K) (h : ∀ c k, F₀ c k = F₁ c k + s * (F₂ c k - F₃ c k)) :
    elasticPower dim l m F₀ G = elasticPower dim l m F₁ G + s * (elasticPower dim l m F₂ G - elasticPower dim l m F₃ G) := by
  have tr : ∑ a ∈ Finset.range dim, F₀ a a = ∑ a ∈ Finset.range dim, F₁ a a + s * (∑ a ∈ Finset.range dim, F₂ a a - ∑ a ∈ Finset.range dim, F₃ a a) := by
    simp only [h, Finset.sum_add_distrib, ← Finset.mul_sum, Finset.sum_sub_distrib]
  unfold elasticPower
  generalize ∑ a ∈ Finset.range dim, F₀ a a = t₀ at tr ⊢
  generalize ∑ a ∈ Finset.range dim, F₁ a a = t₁ at tr ⊢
  generalize ∑ a ∈ Finset.range dim, F₂ a a = t₂ at tr ⊢
  generalize ∑ a ∈ Finset.range dim, F₃ a a = t₃ at tr ⊢
  rw [← Finset.sum_sub_distrib, Finset.mul_sum, ← Finset.sum_add_distrib]
  refine Finset.sum_congr rfl fun c _ => ?_
  rw [← Finset.sum_sub_distrib, Finset.mul_sum, ← Finset.sum_add_distrib]
  refine Finset.sum_congr rfl fun k _ => ?_
  rw [tr, h c k, h k c]
  ring

end affine

section ordered
variable {K : Type*} [Field K] [LinearOrder K] [IsStrictOrderedRing K]

theorem elastic_work (d : Discretization K (List (QPoint K)) (List (QPoint K))) (v : Var) (hv : d.p.vars = [v]) (dim : ℕ) (hd : v.vec = dim)
    (lam mu : List K → K) (u w : List K) (nodes : List (List ℕ)) (q : QPoint K) :
    Verif.Spec.volumeWork (fields d.p.vars) nodes dim (formOf none (some (smallStrainStress dim lam mu))) u w q =
      elasticPower dim (lam q.iv) (mu q.iv) (Verif.Spec.fieldGrad (fields d.p.vars) u 0 (nodes.getD 0 []) (Verif.Spec.fe q 0).grads)
        (Verif.Spec.fieldGrad (fields d.p.vars) w 0 (nodes.getD 0 []) (Verif.Spec.fe q 0).grads) * (Verif.Spec.fe q 0).jxw := by
  have hvec : ((fields d.p.vars).getD 0 ⟨0, 0⟩).vec = dim := by rw [fields_vec', hv]; exact hd
  have hlen : (fields d.p.vars).length = 1 := by rw [fields_length, hv]; rfl
  unfold Verif.Spec.volumeWork
  rw [gradsAt_one d v hv dim hd, hlen]
  simp only [Finset.range_one, Finset.sum_singleton, hvec, formOf, List.getD_cons_zero, List.getD_nil, zero_mul,
    Finset.sum_const_zero, zero_add]
  congr 1
  refine Finset.sum_congr rfl fun c hc => Finset.sum_congr rfl fun k hk => ?_
  rw [smallStrainStress_getD dim _ _ _ _ _ _ (by simpa using hc) (by simpa using hk)]

/-- C160: the residual of isotropic linear elasticity under dead loads is affine. -/
theorem C160_elastic_affine (d : Discretization K (List (QPoint K)) (List (QPoint K))) (hd : DiscOK d) (v : Var) (hv : d.p.vars = [v]) (dim : ℕ)
    (hvec : v.vec = dim) (lam mu : List K → K) (sf : ℕ → SurfaceForm K)
    (hk : FormKernels d dim (formOf none (some (smallStrainStress dim lam mu))) sf)
    (hdead : ∀ s p p' x iv, sf s p x iv = sf s p' x iv) : AffineResidual d := by
  intro s u a b w hw i hi
  simp only [← inner_single d.p.n i hi, C82_residual_is_the_weak_form d hd dim _ _ hk, totalWork_eq]
  have hface : ∀ y : List K, ∀ t nodes q, Verif.Spec.surfaceWork (fields d.p.vars) nodes (sf t) y ((List.replicate d.p.n 0).set i 1) q =
      Verif.Spec.surfaceWork (fields d.p.vars) nodes (sf t) u ((List.replicate d.p.n 0).set i 1) q := by
    intro y t nodes q
    unfold Verif.Spec.surfaceWork
    rw [hdead t _ (Verif.Spec.valuesAt (fields d.p.vars) nodes u q)]
  simp only [hface w, hface a, hface b, elastic_work d v hv dim hvec]
  let P : List K → List (List ℕ) → QPoint K → K := fun y nodes q => elasticPower dim (lam q.iv) (mu q.iv)
    (Verif.Spec.fieldGrad (fields d.p.vars) y 0 (nodes.getD 0 []) (Verif.Spec.fe q 0).grads)
    (Verif.Spec.fieldGrad (fields d.p.vars) ((List.replicate d.p.n 0).set i 1) 0 (nodes.getD 0 []) (Verif.Spec.fe q 0).grads) * (Verif.Spec.fe q 0).jxw
  have := overCells_comb d s (P w) (P u) (P a) (P b) fun nodes q => by
    simp only [P]
    rw [elasticPower_comb dim _ _ s _ _ _ _ _ fun c k => fieldGrad_comb _ s u a b w hw 0 _ _ c k]
    ring
  linear_combination this

/-- C160: a strictly monotone problem with an affine residual on a braced mesh has exactly one equilibrium. -/
theorem C160_affine_equilibrium {d : Discretization K (List (QPoint K)) (List (QPoint K))} {v : Var} {dim : ℕ} {X : ℕ → ℕ → K} {wf : WeakForm K}
    {sf : ℕ → SurfaceForm K} (h : MonotoneProblem d v dim X wf sf) (ha : AffineResidual d) (bc : DirichletBC K) (hbc : CanonicalBC d.p.n bc)
    (hb : Braced d v dim X bc.rows) : ∃! u, Equilibrium d bc u := by
  have hg : ∀ (x : Fin d.p.n → K) (j : ℕ), (List.ofFn x).getD j 0 = if hj : j < d.p.n then x ⟨j, hj⟩ else 0 := by
    intro x j
    split_ifs with hj
    · rw [List.getD_eq_getElem _ _ (by simpa using hj), List.getElem_ofFn]
    · rw [List.getD_eq_default _ _ (by simpa using hj)]
  have h0 : ∀ j, (List.ofFn (0 : Fin d.p.n → K)).getD j 0 = 0 := by
    intro j
    rw [hg]
    split_ifs <;> rfl
  let r : (Fin d.p.n → K) → ℕ → K := fun x i => (d.residualAt (List.ofFn x)).getD i 0
  let L : (Fin d.p.n → K) →ₗ[K] (Fin d.p.n → K) :=
    { toFun := fun x i => if i.val ∈ bc.rows then x i else r x i - r 0 i
      map_add' := by
        intro x y
        funext i
        have := ha 1 (List.ofFn x) (List.ofFn y) (List.ofFn 0) (List.ofFn (x + y)) (by
          intro j
          rw [h0, hg, hg, hg]
          split_ifs <;> simp) i i.isLt
        simp only [Pi.add_apply]
        split_ifs
        · rfl
        · simp only [r]
          rw [this]
          ring
      map_smul' := by
        intro s x
        funext i
        have := ha s (List.ofFn 0) (List.ofFn x) (List.ofFn 0) (List.ofFn (s • x)) (by
          intro j
          rw [h0, hg, hg]
          split_ifs <;> simp) i i.isLt
        simp only [Pi.smul_apply, RingHom.id_apply, smul_eq_mul]
        split_ifs
        · rfl
        · simp only [r]
          rw [this]
          ring }
  have hL : ∀ x i, L x i = if i.val ∈ bc.rows then x i else r x i - r 0 i := fun _ _ => rfl
  have hinj : Function.Injective L := by
    intro x y hxy
    have hrow : ∀ i ∈ bc.rows, (List.ofFn x).getD i 0 = (List.ofFn y).getD i 0 := by
      intro i hi
      have := congrFun hxy ⟨i, hbc.lt i hi⟩
      rw [hL, hL, if_pos hi, if_pos hi] at this
      rw [hg, hg, dif_pos (hbc.lt i hi), dif_pos (hbc.lt i hi), this]
    have hres : ∀ i < d.p.n, i ∉ bc.rows → (d.residualAt (List.ofFn x)).getD i 0 = (d.residualAt (List.ofFn y)).getD i 0 := by
      intro i hi hr
      have := congrFun hxy ⟨i, hi⟩
      rw [hL, hL, if_neg hr, if_neg hr] at this
      exact sub_left_injective this
    exact List.ofFn_injective (C160_same_forces h hb _ _ (by simp) (by simp) hrow hres)
  obtain ⟨x, hx⟩ := (LinearMap.injective_iff_surjective.mp hinj) fun i =>
    if i.val ∈ bc.rows then bc.vals.getD (bc.rows.idxOf i.val) 0 else - r 0 i
  have he : Equilibrium d bc (List.ofFn x) := by
    refine ⟨by simp, fun k hk => ?_, fun i hi hr => ?_⟩
    · have hm := rows_getD_mem bc hk
      have := congrFun hx ⟨_, hbc.lt _ hm⟩
      simp only [hL, if_pos hm] at this
      rw [hg, dif_pos (hbc.lt _ hm), this]
      congr 1
      rw [List.getD_eq_getElem _ _ hk]
      exact List.Nodup.idxOf_getElem (hbc.sorted.imp Nat.ne_of_lt) _ _
    · have := congrFun hx ⟨i, hi⟩
      simp only [hL, if_neg hr] at this
      show r x i = 0
      linear_combination this
  refine ⟨_, he, fun u hu => ?_⟩
  refine C160_unique h hb _ _ hu.1 he.1 (fun i hi => ?_) hu.2.2 he.2.2
  obtain ⟨k, hk, rfl⟩ := mem_rows_getD hbc hi
  rw [hu.2.1 k hk, he.2.1 k hk]

end ordered

section examples

/-- The plate of two cells has exactly one equilibrium. -/
example : ∃! u, Equilibrium exSheet exSheetBC u :=
  C160_affine_equilibrium exSheet_problem.1 (C160_elastic_affine exSheet exSheet_ok (planeVar exSheetMesh) rfl 2 rfl _ _ _ exSheet_kernels
    fun _ _ _ _ _ => rfl) exSheetBC ⟨by decide, by decide, by decide, by decide, by decide, by decide⟩ exSheet_problem.2

end examples

section linear
variable {K : Type*} [Field K]

/-- C160: a problem with an affine residual, whose tangent is the change of the residual per unit change of a DOF, is linear. -/
theorem C160_affine_linear (d : Discretization K (List (QPoint K)) (List (QPoint K))) (ha : AffineResidual d) (sol : List K)
    (hs : sol.length = d.p.n)
    (ht : ∀ i < d.p.n, ∀ j < d.p.n, tangentAt d sol i j = (d.residualAt (sol.set j (sol.getD j 0 + 1))).getD i 0 - (d.residualAt sol).getD i 0) :
    Linear d sol := by
  intro u hu i hi
  have hg : ∀ (x : Fin d.p.n → K) (j : ℕ), (List.ofFn x).getD j 0 = if hj : j < d.p.n then x ⟨j, hj⟩ else 0 := by
    intro x j
    split_ifs with hj
    · rw [List.getD_eq_getElem _ _ (by simpa using hj), List.getElem_ofFn]
    · rw [List.getD_eq_default _ _ (by simpa using hj)]
  have h0 : ∀ j, (List.ofFn (0 : Fin d.p.n → K)).getD j 0 = 0 := by
    intro j
    rw [hg]
    split_ifs <;> rfl
  let r : (Fin d.p.n → K) → K := fun x => (d.residualAt (List.ofFn x)).getD i 0
  let L : (Fin d.p.n → K) →ₗ[K] K :=
    { toFun := fun x => r x - r 0
      map_add' := by
        intro x y
        have := ha 1 (List.ofFn x) (List.ofFn y) (List.ofFn 0) (List.ofFn (x + y)) (by
          intro j
          rw [h0, hg, hg, hg]
          split_ifs <;> simp) i hi
        simp only [r]
        rw [this]
        ring
      map_smul' := by
        intro s x
        have := ha s (List.ofFn 0) (List.ofFn x) (List.ofFn 0) (List.ofFn (s • x)) (by
          intro j
          rw [h0, hg, hg]
          split_ifs <;> simp) i hi
        simp only [r, RingHom.id_apply, smul_eq_mul]
        rw [this]
        ring }
  have hL : ∀ x, L x = r x - r 0 := fun _ => rfl
  have key : ∀ x : Fin d.p.n → K, ∀ a b : List K, (∀ j, b.getD j 0 = a.getD j 0 + (List.ofFn x).getD j 0) →
      (d.residualAt b).getD i 0 = (d.residualAt a).getD i 0 + L x := by
    intro x a b hab
    have := ha 1 a (List.ofFn x) (List.ofFn 0) b (fun j => by rw [hab, h0]; ring) i hi
    rw [this, hL]
    simp only [r]
    ring
  have hcol : ∀ j : Fin d.p.n, L (fun k => if j = k then 1 else 0) = tangentAt d sol i j := by
    intro j
    rw [ht i hi j j.isLt, key (fun k => if j = k then 1 else 0) sol (sol.set j (sol.getD j 0 + 1))]
    · ring
    · intro k
      rw [hg]
      by_cases hk : k < d.p.n
      · rw [dif_pos hk]
        by_cases hjk : j.val = k
        · subst hjk
          rw [List.getD_eq_getElem?_getD (l := sol.set _ _), List.getElem?_set_self (by omega)]
          simp
        · rw [List.getD_eq_getElem?_getD (l := sol.set _ _), List.getElem?_set_ne hjk, ← List.getD_eq_getElem?_getD,
            if_neg (fun he => hjk (by rw [he])), add_zero]
      · rw [dif_neg hk, List.getD_eq_default _ _ (by simp; omega), List.getD_eq_default _ _ (by omega), add_zero]
  rw [key (fun j => u.getD j 0 - sol.getD j 0) sol u (fun j => by
    rw [hg]
    split_ifs with hj
    · ring
    · rw [List.getD_eq_default _ _ (by omega), List.getD_eq_default _ _ (by omega), add_zero]), LinearMap.pi_apply_eq_sum_univ, Finset.sum_range]
  congr 1
  refine Finset.sum_congr rfl fun j _ => ?_
  rw [hcol, smul_eq_mul, mul_comm]

end linear

section plate
variable {K : Type*} [Field K] [LinearOrder K] [IsStrictOrderedRing K] {nx ny : ℕ} {lx ly x0 y0 : K} {m : FeMesh (K × K)}

/-- C160: isotropic linear elasticity on a `QUAD4` rectangle mesh with two held nodes and dead loads has exactly one equilibrium, for all
loads and boundary values. -/
theorem C160_plate_equilibrium (hx : 0 < nx) (hy : 0 < ny) (hlx : 0 < lx) (hly : 0 < ly) (h : rectangleMesh nx ny lx ly x0 y0 "QUAD4" = .ok m)
    (d : Discretization K (List (QPoint K)) (List (QPoint K))) (hd : DiscOK d) (hv : d.p.vars = [planeVar m]) {k : ℕ}
    (pts : Fin k → K × K × K) (w : Fin k → K) (hw : ∀ q, 0 < w q) (iv : ℕ → Fin k → List K) (g g' : K) (hg : g ≠ g')
    (hp : ∀ x ∈ [g, g'], ∀ y ∈ [g, g'], ∃ q, (pts q).1 = x ∧ (pts q).2.1 = y)
    (hcells : d.cellsIn = (List.range (nx * ny)).map fun c =>
      (EleType.QUAD4.refElem 2 pts w).cellPoints (coordsOf (planeX m) ((planeVar m).cells.getD c [])) (iv c))
    (lam mu : List K → K) (hl : ∀ c q, 0 ≤ lam (iv c q)) (hm : ∀ c q, 0 < mu (iv c q)) (sf : ℕ → SurfaceForm K)
    (hk : FormKernels d 2 (formOf none (some (smallStrainStress 2 lam mu))) sf)
    (hfaces : ∀ fs ∈ d.facesIn, ∀ pts ∈ fs, ∀ q ∈ pts, 0 ≤ (Verif.Spec.fe q 0).jxw)
    (hdead : ∀ s p p' x iv, sf s p x iv = sf s p' x iv)
    (bc : DirichletBC K) (hbc : CanonicalBC d.p.n bc) (n₁ n₂ : ℕ) (h₁ : n₁ < m.points.length) (h₂ : n₂ < m.points.length)
    (hne : n₁ ≠ n₂) (hrows : ∀ c < 2, n₁ * 2 + c ∈ bc.rows ∧ n₂ * 2 + c ∈ bc.rows) : ∃! u, Equilibrium d bc u := by
  obtain ⟨hmono, hb⟩ := C160_plate hx hy hlx hly h d hd hv pts w hw iv g g' hg hp hcells lam mu hl hm sf hk hfaces
    (fun s fs _ _ _ q _ a b => by rw [hdead s [a] [b]]; simp) bc.rows n₁ n₂ h₁ h₂ hne hrows
  exact C160_affine_equilibrium hmono (C160_elastic_affine d hd _ hv 2 rfl lam mu sf hk hdead) bc hbc hb

end plate

section examples

example : ∃! u, Equilibrium exSheet exSheetBC u :=
  C160_plate_equilibrium (by norm_num) (by norm_num) (by norm_num) (by norm_num) exSheetMesh_eq exSheet exSheet_ok rfl exSheetPts (fun _ => 1 / 4)
    (fun _ => by norm_num) exSheetIv (1 / 4) (3 / 4) (by norm_num) (by decide +kernel) rfl (fun _ => 1) (fun iv => iv.getD 0 1) (fun _ _ => by norm_num)
    (fun c q => by simp only [exSheetIv, List.getD_cons_zero]; positivity) (fun _ _ _ _ => []) exSheet_kernels
    (fun fs hfs => by simp [exSheet] at hfs) (fun _ _ _ _ _ => rfl) exSheetBC
    ⟨by decide, by decide, by decide, by decide, by decide, by decide⟩ 0 1 (by decide) (by decide) (by decide) (by decide)

/-- The tangent of the cut square is the change of its residual per unit change of a DOF. -/
example : Linear exCutSquare exCutSquareGuess :=
  C160_affine_linear exCutSquare (C160_elastic_affine exCutSquare exCutSquare_ok exCutSquareVar rfl 2 rfl _ _ _ exCutSquare_kernels
    fun _ _ _ _ _ => rfl) exCutSquareGuess rfl (by
      show ∀ i < 8, ∀ j < 8, _
      decide +kernel)

end examples

end Verif.Props
