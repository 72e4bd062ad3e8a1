import Verif.Props.Balance
import Mathlib.Analysis.Calculus.Deriv.Add
import Mathlib.Analysis.Calculus.Deriv.Mul
import Mathlib.Analysis.Calculus.Deriv.Pow
import Mathlib.Analysis.Calculus.LocalExtr.Basic
import Mathlib.Algebra.Order.BigOperators.Ring.Finset

/-!
# C84: the residual of an energy density is the gradient of the total energy

`create_energy_fn` integrates the density; the assembler builds the residual from its derivative.
-/

namespace Verif.Props

open Verif.Model

/-- The array with rows `F a 0, …, F a (n-1)`. -/
def matOf {K : Type*} (m n : ℕ) (F : ℕ → ℕ → K) : List (List K) :=
  (List.range m).map (fun a => (List.range n).map (F a))

/-- `u + t w`, entry by entry. -/
def along {K : Type*} [CommRing K] (u w : List K) (t : K) : List K := vadd u (w.map (t * ·))

section ring
variable {K : Type*} [CommRing K]

theorem along_getD (u w : List K) (h : u.length = w.length) (t : K) (j : ℕ) :
    (along u w t).getD j 0 = u.getD j 0 + t * w.getD j 0 := by
  unfold along
  rw [vadd_getD _ _ (by simpa using h)]
  congr 1
  simp only [List.getD_eq_getElem?_getD, List.getElem?_map]
  cases w[j]? <;> simp

theorem along_length (u w : List K) (h : u.length = w.length) (t : K) : (along u w t).length = u.length := by
  simp [along, vadd, h]

theorem fieldGrad_along (fs : List Spec.Field) (u w : List K) (h : u.length = w.length) (t : K) (i : ℕ)
    (nodes : List ℕ) (G : List (List K)) (comp k : ℕ) :
    Spec.fieldGrad fs (along u w t) i nodes G comp k
      = Spec.fieldGrad fs u i nodes G comp k + t * Spec.fieldGrad fs w i nodes G comp k := by
  unfold Spec.fieldGrad
  rw [Finset.mul_sum, ← Finset.sum_add_distrib]
  apply Finset.sum_congr rfl
  intro a _
  rw [along_getD u w h]
  ring

theorem dofNumber_first (vars : List Var) (node c : ℕ) :
    Spec.dofNumber (fields vars) 0 node c = node * (vars.getD 0 noVar).vec + c := by
  rw [dofNumber_fields]
  simp [noVar]

theorem reshape_entry (N vec : ℕ) (xs : List K) (node c : ℕ) (hn : node < N) (hc : c < vec) :
    ((reshapeRows N vec xs).getD node []).getD c 0 = xs.getD (node * vec + c) 0 := by
  rw [reshapeRows_getD _ _ _ _ hn]
  simp only [List.getD_eq_getElem?_getD, List.getElem?_take, List.getElem?_drop, hc, if_true]

theorem zip_getD_eq {A B : Type*} (dflt : B) (l : List A) (l' : List B) (h : l.length = l'.length) (k : ℕ)
    (l'' : List B) (hk : ∀ j, l'.getD j dflt = l''.getD (k + j) dflt) :
    l.zip l' = (l.zipIdx k).map (fun p => (p.1, l''.getD p.2 dflt)) := by
  induction l generalizing l' k with
  | nil => simp
  | cons a l ih =>
    cases l' with
    | nil => simp at h
    | cons b l' =>
      simp only [List.zip_cons_cons, List.zipIdx_cons, List.map_cons]
      congr 1
      · have := hk 0
        simp only [List.getD_cons_zero, add_zero] at this
        rw [this]
      · apply ih l' (by simpa using h)
        intro j
        have := hk (j + 1)
        rw [List.getD_cons_succ] at this
        rw [this]
        congr 1
        omega

/-- The total energy as an integral over the mesh of the density of the discrete gradient. -/
theorem energyFn_eq (d : Discretization K (List (QPoint K)) (List (QPoint K))) (h : DiscOK d) (dim : ℕ)
    (v : Var) (hv : d.p.vars = [v]) (psi : List (List K) → List K → K) (u : List K) :
    energyFn v dim psi d.cellsIn u = overCells d (fun nodes q =>
      psi (matOf v.vec dim (fun c k => Spec.fieldGrad (fields d.p.vars) u 0 (nodes.getD 0 []) (Spec.fe q 0).grads c k))
        q.iv * (Spec.fe q 0).jxw) := by
  have hvm : v ∈ d.p.vars := by rw [hv]; simp
  have hw := h.wf.vars v hvm
  have h0 : 0 < d.p.vars.length := by rw [hv]; simp
  have hv0 : d.p.vars.getD 0 noVar = v := by rw [hv]; rfl
  unfold energyFn overCells
  rw [zip_getD_eq [] d.cellsIn v.cells (by rw [h.cells, hw.rows]) 0 v.cells (by simp)]
  simp only [List.map_map]
  congr 1
  apply List.map_congr_left
  intro cell hc
  have hcell : cell.2 < d.p.numCells := by
    have hz := List.mem_zipIdx hc
    rw [← h.cells]; omega
  simp only [Function.comp_apply]
  congr 1
  apply List.map_congr_left
  intro q _
  congr 2
  unfold opGrad matOf
  apply List.map_congr_left
  intro c hcc
  apply List.map_congr_left
  intro k _
  rw [cellNodes_getD d.p _ 0 h0, hv0]
  unfold Spec.fieldGrad
  rw [List.length_map]
  apply Finset.sum_congr rfl
  intro a ha
  have ha' : a < (v.cells.getD cell.2 []).length := by simpa using ha
  have hnode := cellNode_lt d.p h.wf cell.2 0 h0 a (by rw [cellNodes_getD d.p _ 0 h0, hv0]; exact ha')
  rw [cellNodes_getD d.p _ 0 h0, hv0] at hnode
  rw [dofNumber_first, hv0, ← reshape_entry v.numNodes v.vec u _ c hnode (by simpa using hcc)]
  congr 2
  rw [List.getD_eq_getElem (List.map _ _) _ (by simpa using ha'), List.getElem_map,
    List.getD_eq_getElem _ _ ha']

/-- The virtual work of a tensor-map problem. -/
theorem inner_tensor (d : Discretization K (List (QPoint K)) (List (QPoint K))) (h : DiscOK d) (dim : ℕ)
    (v : Var) (hv : d.p.vars = [v]) (T : List (List K) → List K → List (List K))
    (hk : FormKernels d dim (formOf none (some T)) (fun _ _ _ _ => [])) (u w : List K) :
    Spec.inner d.p.n (d.residualAt u) w = overCells d (fun nodes q =>
      (∑ c ∈ Finset.range v.vec, ∑ k ∈ Finset.range dim,
        ((T (matOf v.vec dim (fun c k => Spec.fieldGrad (fields d.p.vars) u 0 (nodes.getD 0 [])
            (Spec.fe q 0).grads c k)) q.iv).getD c []).getD k 0
          * Spec.fieldGrad (fields d.p.vars) w 0 (nodes.getD 0 []) (Spec.fe q 0).grads c k) * (Spec.fe q 0).jxw) := by
  rw [C82_residual_is_the_weak_form d h dim _ _ hk, totalWork_eq]
  have hv0 : d.p.vars.getD 0 noVar = v := by rw [hv]; rfl
  have hlen : (fields d.p.vars).length = 1 := by rw [fields_length, hv]; rfl
  rw [overFaces_zero, add_zero]
  · apply overCells_congr
    intro cell hc q hq
    unfold Spec.volumeWork
    simp only [hlen, Finset.sum_range_one, fields_vec', hv0]
    congr 1
    rw [Finset.sum_eq_zero, zero_add]
    · apply Finset.sum_congr rfl
      intro c _
      apply Finset.sum_congr rfl
      intro k _
      congr 1
      unfold formOf Spec.gradsAt
      simp only [hlen, List.range_one, List.map_cons, List.map_nil, List.getD_cons_zero, fields_vec', hv0]
      rfl
    · intro c _
      simp [formOf]
  · intro s nodes q
    unfold Spec.surfaceWork
    simp

end ring

/-- `T` is the derivative of the density `psi` with respect to the displacement gradient, as
`jax.grad(energy_density)` is: along every line the derivative is the full contraction. -/
def IsGradientOf (vec dim : ℕ) (psi : List (List ℝ) → List ℝ → ℝ) (T : List (List ℝ) → List ℝ → List (List ℝ)) :
    Prop :=
  ∀ iv (F G : ℕ → ℕ → ℝ), HasDerivAt (fun t => psi (matOf vec dim (fun c k => F c k + t * G c k)) iv)
    (∑ c ∈ Finset.range vec, ∑ k ∈ Finset.range dim, ((T (matOf vec dim F) iv).getD c []).getD k 0 * G c k) 0

theorem hasDerivAt_list_sum {A : Type*} (l : List A) (f : A → ℝ → ℝ) (f' : A → ℝ) (t : ℝ)
    (h : ∀ a ∈ l, HasDerivAt (f a) (f' a) t) :
    HasDerivAt (fun s => (l.map (fun a => f a s)).sum) (l.map f').sum t := by
  induction l with
  | nil => simpa using hasDerivAt_const t (0 : ℝ)
  | cons a l ih =>
    simp only [List.map_cons, List.sum_cons]
    exact (h a (by simp)).add (ih (fun b hb => h b (by simp [hb])))

/-- **C84, gradient of the energy.** In every direction `w` the derivative of the total energy at `u` is
the inner product of `w` with the assembled residual. -/
theorem C84_residual_is_the_energy_gradient (d : Discretization ℝ (List (QPoint ℝ)) (List (QPoint ℝ)))
    (h : DiscOK d) (dim : ℕ) (v : Var) (hv : d.p.vars = [v]) (psi : List (List ℝ) → List ℝ → ℝ)
    (T : List (List ℝ) → List ℝ → List (List ℝ)) (hT : IsGradientOf v.vec dim psi T)
    (hk : FormKernels d dim (formOf none (some T)) (fun _ _ _ _ => [])) (u w : List ℝ)
    (hlen : u.length = w.length) :
    HasDerivAt (fun t => energyFn v dim psi d.cellsIn (along u w t)) (Spec.inner d.p.n (d.residualAt u) w) 0 := by
  rw [inner_tensor d h dim v hv T hk]
  have e : (fun t => energyFn v dim psi d.cellsIn (along u w t)) = fun t => overCells d (fun nodes q =>
      psi (matOf v.vec dim (fun c k => Spec.fieldGrad (fields d.p.vars) u 0 (nodes.getD 0 []) (Spec.fe q 0).grads c k
        + t * Spec.fieldGrad (fields d.p.vars) w 0 (nodes.getD 0 []) (Spec.fe q 0).grads c k))
        q.iv * (Spec.fe q 0).jxw) := by
    funext t
    rw [energyFn_eq d h dim v hv psi (along u w t)]
    simp only [fieldGrad_along _ u w hlen]
  rw [e]
  unfold overCells
  apply hasDerivAt_list_sum d.cellsIn.zipIdx (fun cell t => (cell.1.map (fun q =>
      psi (matOf v.vec dim (fun c k => Spec.fieldGrad (fields d.p.vars) u 0 ((cellNodes d.p cell.2).getD 0 [])
          (Spec.fe q 0).grads c k
        + t * Spec.fieldGrad (fields d.p.vars) w 0 ((cellNodes d.p cell.2).getD 0 []) (Spec.fe q 0).grads c k))
        q.iv * (Spec.fe q 0).jxw)).sum)
  intro cell _
  apply hasDerivAt_list_sum cell.1 (fun q t =>
      psi (matOf v.vec dim (fun c k => Spec.fieldGrad (fields d.p.vars) u 0 ((cellNodes d.p cell.2).getD 0 [])
          (Spec.fe q 0).grads c k
        + t * Spec.fieldGrad (fields d.p.vars) w 0 ((cellNodes d.p cell.2).getD 0 []) (Spec.fe q 0).grads c k))
        q.iv * (Spec.fe q 0).jxw)
  intro q _
  exact (hT q.iv _ _).mul_const _

/-- **C84, minimisers are equilibria.** If `u` minimises the energy among the vectors with the same values
at the constrained DOFs, the residual vanishes at every free DOF. -/
theorem C84_minimiser_is_equilibrium (d : Discretization ℝ (List (QPoint ℝ)) (List (QPoint ℝ)))
    (h : DiscOK d) (dim : ℕ) (v : Var) (hv : d.p.vars = [v]) (psi : List (List ℝ) → List ℝ → ℝ)
    (T : List (List ℝ) → List ℝ → List (List ℝ)) (hT : IsGradientOf v.vec dim psi T)
    (hk : FormKernels d dim (formOf none (some T)) (fun _ _ _ _ => [])) (u : List ℝ) (hu : u.length = d.p.n)
    (rows : List ℕ)
    (hmin : ∀ x : List ℝ, x.length = d.p.n → (∀ i ∈ rows, x.getD i 0 = u.getD i 0) →
      energyFn v dim psi d.cellsIn u ≤ energyFn v dim psi d.cellsIn x)
    (i : ℕ) (hi : i < d.p.n) (hfree : i ∉ rows) : (d.residualAt u).getD i 0 = 0 := by
  set w : List ℝ := (List.replicate d.p.n 0).set i 1 with hw
  have hlen : u.length = w.length := by simp [hw, hu]
  have hd := C84_residual_is_the_energy_gradient d h dim v hv psi T hT hk u w hlen
  rw [hw, inner_single d.p.n i hi] at hd
  have h0 : along u w 0 = u := by
    apply List.ext_getElem (along_length u w hlen 0)
    intro j h1 h2
    have := along_getD u w hlen 0 j
    rw [List.getD_eq_getElem _ _ h1, List.getD_eq_getElem _ _ h2] at this
    simpa using this
  have hloc : IsLocalMin (fun t => energyFn v dim psi d.cellsIn (along u w t)) 0 := by
    apply Filter.Eventually.of_forall
    intro t
    simp only [h0]
    apply hmin
    · rw [along_length u w hlen, hu]
    · intro j hj
      have hne : i ≠ j := by rintro rfl; exact hfree hj
      rw [along_getD u w hlen]
      have : w.getD j 0 = 0 := by
        rw [hw]
        simp only [List.getD_eq_getElem?_getD, List.getElem?_set_ne hne, List.getElem?_replicate]
        split <;> rfl
      rw [this]; ring
  exact hloc.hasDerivAt_eq_zero hd

theorem overCells_le {K : Type*} [CommRing K] [LinearOrder K] [IsStrictOrderedRing K]
    (d : Discretization K (List (QPoint K)) (List (QPoint K)))
    (f g : List (List ℕ) → QPoint K → K)
    (h : ∀ cell ∈ d.cellsIn.zipIdx, ∀ q ∈ cell.1, f (cellNodes d.p cell.2) q ≤ g (cellNodes d.p cell.2) q) :
    overCells d f ≤ overCells d g := by
  unfold overCells
  apply List.sum_le_sum
  intro cell hc
  exact List.sum_le_sum (h cell hc)

theorem overCells_add {K : Type*} [CommRing K] (d : Discretization K (List (QPoint K)) (List (QPoint K)))
    (f g : List (List ℕ) → QPoint K → K) :
    overCells d (fun n q => f n q + g n q) = overCells d f + overCells d g := by
  unfold overCells
  simp only [List.sum_map_add]

/-- **C84, equilibria of convex densities are minimisers.** If the density lies above its tangents (convex
materials, such as linear elasticity) and the weights are not negative, a state whose residual vanishes at
the free DOFs has the least energy among all states with the same prescribed values. Over any ordered
ring. -/
theorem C84_convex_equilibrium_is_minimiser {K : Type*} [CommRing K] [LinearOrder K] [IsStrictOrderedRing K]
    (d : Discretization K (List (QPoint K)) (List (QPoint K)))
    (h : DiscOK d) (dim : ℕ) (v : Var) (hv : d.p.vars = [v]) (psi : List (List K) → List K → K)
    (T : List (List K) → List K → List (List K))
    (hconv : ∀ pts ∈ d.cellsIn, ∀ q ∈ pts, ∀ F G : ℕ → ℕ → K, psi (matOf v.vec dim F) q.iv
      + ∑ c ∈ Finset.range v.vec, ∑ k ∈ Finset.range dim, ((T (matOf v.vec dim F) q.iv).getD c []).getD k 0 * G c k
      ≤ psi (matOf v.vec dim (fun c k => F c k + G c k)) q.iv)
    (hk : FormKernels d dim (formOf none (some T)) (fun _ _ _ _ => []))
    (hJ : ∀ pts ∈ d.cellsIn, ∀ q ∈ pts, 0 ≤ (Spec.fe q 0).jxw)
    (u : List K) (hu : u.length = d.p.n) (rows : List ℕ)
    (heq : ∀ i < d.p.n, i ∉ rows → (d.residualAt u).getD i 0 = 0)
    (x : List K) (hx : x.length = d.p.n) (hfix : ∀ i ∈ rows, x.getD i 0 = u.getD i 0) :
    energyFn v dim psi d.cellsIn u ≤ energyFn v dim psi d.cellsIn x := by
  set w : List K := List.zipWith (· - ·) x u with hw
  have hwl : w.length = d.p.n := by simp [hw, hx, hu]
  have hlen : u.length = w.length := by rw [hwl, hu]
  have hwg : ∀ j, w.getD j 0 = x.getD j 0 - u.getD j 0 := by
    intro j
    by_cases hj : j < d.p.n
    · rw [List.getD_eq_getElem _ _ (by rw [hwl]; exact hj), List.getD_eq_getElem _ _ (by rw [hx]; exact hj),
        List.getD_eq_getElem _ _ (by rw [hu]; exact hj)]
      simp [hw]
    · rw [List.getD_eq_default _ _ (by omega), List.getD_eq_default _ _ (by omega),
        List.getD_eq_default _ _ (by omega), sub_zero]
  have hxe : x = along u w 1 := by
    apply List.ext_getElem
    · rw [along_length u w hlen, hx, hu]
    · intro j h1 h2
      have := along_getD u w hlen 1 j
      rw [List.getD_eq_getElem _ _ h2, hwg j, List.getD_eq_getElem _ _ h1] at this
      rw [this]; ring
  have hin : Spec.inner d.p.n (d.residualAt u) w = 0 := by
    apply Finset.sum_eq_zero
    intro i hi
    by_cases hm : i ∈ rows
    · rw [hwg, hfix i hm, sub_self, mul_zero]
    · rw [heq i (by simpa using hi) hm, zero_mul]
  rw [inner_tensor d h dim v hv T hk] at hin
  rw [energyFn_eq d h dim v hv, energyFn_eq d h dim v hv, hxe, ← add_zero (overCells d _), ← hin, ← overCells_add]
  apply overCells_le
  intro cell hc q hq
  have hmem : cell.1 ∈ d.cellsIn := by
    have := (List.mem_zipIdx hc).2.2; rw [this]; exact List.getElem_mem _
  rw [← add_mul]
  apply mul_le_mul_of_nonneg_right _ (hJ _ hmem q hq)
  simp only [fieldGrad_along _ u w hlen, one_mul]
  exact hconv _ hmem q hq _ _

section example_

/-- The density `iv₀ |H|² / 2` and its derivative. -/
noncomputable def exDensity (vec dim : ℕ) (H : List (List ℝ)) (iv : List ℝ) : ℝ :=
  iv.getD 0 0 / 2 * ∑ c ∈ Finset.range vec, ∑ k ∈ Finset.range dim, ((H.getD c []).getD k 0) ^ 2

def exDensityGrad (H : List (List ℝ)) (iv : List ℝ) : List (List ℝ) := H.map (fun r => r.map (iv.getD 0 0 * ·))

theorem matOf_getD {K : Type*} [CommRing K] (m n : ℕ) (F : ℕ → ℕ → K) (a k : ℕ) (ha : a < m) (hk : k < n) :
    ((matOf m n F).getD a []).getD k 0 = F a k := by
  simp [matOf, List.getD_eq_getElem?_getD, ha, hk]

/-- `exDensityGrad` is the derivative of `exDensity`. -/
theorem exDensity_gradient (vec dim : ℕ) : IsGradientOf vec dim (exDensity vec dim) exDensityGrad := by
  intro iv F G
  have e : (fun t => exDensity vec dim (matOf vec dim (fun c k => F c k + t * G c k)) iv) = fun t =>
      iv.getD 0 0 / 2 * ∑ c ∈ Finset.range vec, ∑ k ∈ Finset.range dim, (F c k + t * G c k) ^ 2 := by
    funext t
    unfold exDensity
    congr 1
    apply Finset.sum_congr rfl
    intro c hc
    apply Finset.sum_congr rfl
    intro k hk
    rw [matOf_getD _ _ _ _ _ (by simpa using hc) (by simpa using hk)]
  rw [e]
  have hg : ∀ c < vec, ∀ k < dim, ((exDensityGrad (matOf vec dim F) iv).getD c []).getD k 0 = iv.getD 0 0 * F c k := by
    intro c hc k hk
    simp [exDensityGrad, matOf, List.getD_eq_getElem?_getD, hc, hk]
  have key : HasDerivAt (fun t => iv.getD 0 0 / 2 * ∑ c ∈ Finset.range vec, ∑ k ∈ Finset.range dim,
      (F c k + t * G c k) ^ 2)
      (iv.getD 0 0 / 2 * ∑ c ∈ Finset.range vec, ∑ k ∈ Finset.range dim, 2 * F c k * G c k) 0 := by
    apply HasDerivAt.const_mul
    apply HasDerivAt.fun_sum
    intro c _
    apply HasDerivAt.fun_sum
    intro k _
    have h1 : HasDerivAt (fun t : ℝ => F c k + t * G c k) (G c k) 0 := by
      simpa using ((hasDerivAt_id (0 : ℝ)).mul_const (G c k)).const_add (F c k)
    have := h1.fun_pow 2
    simpa using this
  convert key using 1
  rw [Finset.mul_sum]
  apply Finset.sum_congr rfl
  intro c hc
  rw [Finset.mul_sum]
  apply Finset.sum_congr rfl
  intro k hk
  rw [hg c (by simpa using hc) k (by simpa using hk)]
  ring

/-- The triangle of C83 with that density, stiffness `3`. -/
noncomputable def exEnergyDisc : Discretization ℝ (List (QPoint ℝ)) (List (QPoint ℝ)) :=
  formDisc exTriProblem 2 (formOf none (some exDensityGrad)) (fun _ _ _ _ => [])
    [[⟨[2 / 3, 1 / 3], [3], [⟨[1 / 3, 1 / 3, 1 / 3], [[-1 / 2, -1], [1 / 2, 0], [0, 1]], 1⟩]⟩]] []

theorem exEnergyDisc_ok : DiscOK exEnergyDisc := formDisc_ok _ exTriProblem_wf _ _ _ _ _ rfl .nil

theorem exEnergyDisc_kernels :
    FormKernels exEnergyDisc 2 (formOf none (some exDensityGrad)) (fun _ _ _ _ => []) where
  vol := fun _ _ => rfl
  surf := fun _ _ _ => rfl
  cellPts := by
    intro pts hpts q hq
    simp only [exEnergyDisc, formDisc, List.mem_cons, List.not_mem_nil, or_false] at hpts
    subst hpts
    simp only [List.mem_cons, List.not_mem_nil, or_false] at hq
    subst hq
    exact ⟨rfl, rfl⟩
  facePts := by
    intro fs hfs
    simp [exEnergyDisc, formDisc] at hfs

/-- The hypotheses of the gradient theorem are met for every displacement of the triangle. -/
example (u w : List ℝ) (h : u.length = w.length) :
    HasDerivAt (fun t => energyFn ⟨2, 3, 3, [[0, 1, 2]]⟩ 2 (exDensity 2 2) exEnergyDisc.cellsIn (along u w t))
      (Spec.inner 6 (exEnergyDisc.residualAt u) w) 0 :=
  C84_residual_is_the_energy_gradient exEnergyDisc exEnergyDisc_ok 2 ⟨2, 3, 3, [[0, 1, 2]]⟩ rfl _ _
    (exDensity_gradient 2 2) exEnergyDisc_kernels u w h

/-- The density lies above its tangents where the stiffness is not negative, as `hconv` asks. -/
example (F G : ℕ → ℕ → ℝ) : exDensity 2 2 (matOf 2 2 F) [3]
      + ∑ c ∈ Finset.range 2, ∑ k ∈ Finset.range 2,
        ((exDensityGrad (matOf 2 2 F) [3]).getD c []).getD k 0 * G c k
      ≤ exDensity 2 2 (matOf 2 2 (fun c k => F c k + G c k)) [3] := by
  simp only [exDensity, exDensityGrad, matOf, Finset.sum_range_succ, Finset.sum_range_zero, List.range_succ,
    List.range_zero, List.nil_append, List.map_append, List.map_cons, List.map_nil, List.cons_append,
    List.getD_cons_zero, List.getD_cons_succ]
  nlinarith [sq_nonneg (G 0 0), sq_nonneg (G 0 1), sq_nonneg (G 1 0), sq_nonneg (G 1 1)]

end example_

end Verif.Props
