import Verif.Props.Energy

/-!
# C84, several fields: the residual of a weak form that derives from a density is the gradient of the potential

The density may depend on the values and the gradients of all fields, and dead loads may act on the boundaries.
-/

namespace Verif.Props

open Verif.Model

/-- The list of arrays `V i 0, …, V i (vecs_i - 1)`, one for each field. -/
def valArr {K : Type*} (vecs : List ℕ) (V : ℕ → ℕ → K) : List (List K) :=
  (List.range vecs.length).map fun i => (List.range (vecs.getD i 0)).map (V i)

/-- The list of arrays with rows `G i c 0, …, G i c (dim - 1)`, one for each field. -/
def gradArr {K : Type*} (vecs : List ℕ) (dim : ℕ) (G : ℕ → ℕ → ℕ → K) : List (List (List K)) :=
  (List.range vecs.length).map fun i => matOf (vecs.getD i 0) dim (G i)

section ring
variable {K : Type*} [CommRing K]

theorem fieldValue_along (fs : List Spec.Field) (u w : List K) (h : u.length = w.length) (t : K) (i : ℕ)
    (nodes : List ℕ) (N : List K) (comp : ℕ) :
    Spec.fieldValue fs (along u w t) i nodes N comp
      = Spec.fieldValue fs u i nodes N comp + t * Spec.fieldValue fs w i nodes N comp := by
  unfold Spec.fieldValue
  rw [Finset.mul_sum, ← Finset.sum_add_distrib]
  apply Finset.sum_congr rfl
  intro a _
  rw [along_getD u w h]
  ring

theorem vecs_getD (vars : List Var) (i : ℕ) : (vars.map Var.vec).getD i 0 = (vars.getD i noVar).vec := by
  simp only [List.getD_eq_getElem?_getD, List.getElem?_map]
  cases vars[i]? <;> rfl

theorem valuesAt_eq (vars : List Var) (nodes : List (List ℕ)) (u : List K) (q : QPoint K) :
    Spec.valuesAt (fields vars) nodes u q = valArr (vars.map Var.vec) fun i c =>
      Spec.fieldValue (fields vars) u i (nodes.getD i []) (Spec.fe q i).vals c := by
  unfold Spec.valuesAt valArr
  rw [fields_length, List.length_map]
  apply List.map_congr_left
  intro i _
  rw [fields_vec', vecs_getD]

theorem gradsAt_eq (vars : List Var) (nodes : List (List ℕ)) (dim : ℕ) (u : List K) (q : QPoint K) :
    Spec.gradsAt (fields vars) nodes dim u q = gradArr (vars.map Var.vec) dim fun i c k =>
      Spec.fieldGrad (fields vars) u i (nodes.getD i []) (Spec.fe q i).grads c k := by
  unfold Spec.gradsAt gradArr
  rw [fields_length, List.length_map]
  apply List.map_congr_left
  intro i _
  rw [fields_vec', vecs_getD]
  rfl

end ring

/-- The total potential: the integral of the density over the mesh and the work of the surface terms, which are loads with the sign that the
residual gives them. -/
def potential (d : Discretization ℝ (List (QPoint ℝ)) (List (QPoint ℝ))) (dim : ℕ)
    (psi : List (List ℝ) → List (List (List ℝ)) → List ℝ → List ℝ → ℝ) (sf : ℕ → SurfaceForm ℝ) (u : List ℝ) : ℝ :=
  overCells d (fun nodes q => psi (Spec.valuesAt (fields d.p.vars) nodes u q)
      (Spec.gradsAt (fields d.p.vars) nodes dim u q) q.x q.iv * (Spec.fe q 0).jxw)
    + overFaces d (fun s nodes q => Spec.surfaceWork (fields d.p.vars) nodes (sf s) u u q)

/-- The weak form is the derivative of the density: along every line of values and gradients of the fields, the derivative of the density is
the sum of the mass terms times the values and the gradient terms times the gradients. -/
def IsFormGradientOf (vecs : List ℕ) (dim : ℕ) (psi : List (List ℝ) → List (List (List ℝ)) → List ℝ → List ℝ → ℝ)
    (wf : WeakForm ℝ) : Prop :=
  ∀ x iv (V W : ℕ → ℕ → ℝ) (F G : ℕ → ℕ → ℕ → ℝ),
    HasDerivAt (fun t => psi (valArr vecs fun i c => V i c + t * W i c) (gradArr vecs dim fun i c k => F i c k + t * G i c k) x iv)
      (∑ i ∈ Finset.range vecs.length,
        (∑ c ∈ Finset.range (vecs.getD i 0), ((wf (valArr vecs V) (gradArr vecs dim F) x iv).1.getD i []).getD c 0 * W i c
          + ∑ c ∈ Finset.range (vecs.getD i 0), ∑ k ∈ Finset.range dim,
            (((wf (valArr vecs V) (gradArr vecs dim F) x iv).2.getD i []).getD c []).getD k 0 * G i c k)) 0

/-- The loads do not depend on the solution. -/
def DeadLoads (sf : ℕ → SurfaceForm ℝ) : Prop := ∀ s v v' x iv, sf s v x iv = sf s v' x iv

/-- All fields have the same integration weights. -/
def SharedWeights (d : Discretization ℝ (List (QPoint ℝ)) (List (QPoint ℝ))) : Prop :=
  ∀ pts ∈ d.cellsIn, ∀ q ∈ pts, ∀ i < d.p.vars.length, (Spec.fe q i).jxw = (Spec.fe q 0).jxw

theorem surfaceWork_along (fs : List Spec.Field) (nodes : List (List ℕ)) (sf : ℕ → SurfaceForm ℝ) (hs : DeadLoads sf) (s : ℕ)
    (u w : List ℝ) (h : u.length = w.length) (q : QPoint ℝ) (t : ℝ) :
    Spec.surfaceWork fs nodes (sf s) (along u w t) (along u w t) q
      = Spec.surfaceWork fs nodes (sf s) u u q + t * Spec.surfaceWork fs nodes (sf s) u w q := by
  unfold Spec.surfaceWork
  rw [hs s (Spec.valuesAt fs nodes (along u w t) q) (Spec.valuesAt fs nodes u q)]
  simp only [fieldValue_along _ u w h]
  rw [Finset.mul_sum, ← Finset.sum_add_distrib]
  apply Finset.sum_congr rfl
  intro i _
  rw [← mul_assoc, ← add_mul, Finset.mul_sum, ← Finset.sum_add_distrib]
  congr 1
  apply Finset.sum_congr rfl
  intro c _
  ring

/-- **C84, potential of a weak form with several fields.** If the weak form is the derivative of a density and the loads are dead, the
derivative of the total potential at `u` in every direction `w` is the inner product of `w` with the assembled residual. -/
theorem C84_residual_is_the_potential_gradient (d : Discretization ℝ (List (QPoint ℝ)) (List (QPoint ℝ))) (h : DiscOK d) (dim : ℕ)
    (psi : List (List ℝ) → List (List (List ℝ)) → List ℝ → List ℝ → ℝ) (wf : WeakForm ℝ) (sf : ℕ → SurfaceForm ℝ)
    (hpsi : IsFormGradientOf (d.p.vars.map Var.vec) dim psi wf) (hs : DeadLoads sf) (hJ : SharedWeights d)
    (hk : FormKernels d dim wf sf) (u w : List ℝ) (hlen : u.length = w.length) :
    HasDerivAt (fun t => potential d dim psi sf (along u w t)) (Spec.inner d.p.n (d.residualAt u) w) 0 := by
  rw [C82_residual_is_the_weak_form d h dim wf sf hk, totalWork_eq]
  unfold potential
  apply HasDerivAt.add
  · unfold overCells
    refine hasDerivAt_list_sum d.cellsIn.zipIdx (fun cell t => (cell.1.map fun q =>
      psi (Spec.valuesAt (fields d.p.vars) (cellNodes d.p cell.2) (along u w t) q)
        (Spec.gradsAt (fields d.p.vars) (cellNodes d.p cell.2) dim (along u w t) q) q.x q.iv * (Spec.fe q 0).jxw).sum) _ 0 ?_
    intro cell hc
    have hmem : cell.1 ∈ d.cellsIn := by
      have := (List.mem_zipIdx hc).2.2; rw [this]; exact List.getElem_mem _
    refine hasDerivAt_list_sum cell.1 (fun q t =>
      psi (Spec.valuesAt (fields d.p.vars) (cellNodes d.p cell.2) (along u w t) q)
        (Spec.gradsAt (fields d.p.vars) (cellNodes d.p cell.2) dim (along u w t) q) q.x q.iv * (Spec.fe q 0).jxw) _ 0 ?_
    intro q hq
    have hp := (hpsi q.x q.iv
      (fun i c => Spec.fieldValue (fields d.p.vars) u i ((cellNodes d.p cell.2).getD i []) (Spec.fe q i).vals c)
      (fun i c => Spec.fieldValue (fields d.p.vars) w i ((cellNodes d.p cell.2).getD i []) (Spec.fe q i).vals c)
      (fun i c k => Spec.fieldGrad (fields d.p.vars) u i ((cellNodes d.p cell.2).getD i []) (Spec.fe q i).grads c k)
      (fun i c k => Spec.fieldGrad (fields d.p.vars) w i ((cellNodes d.p cell.2).getD i []) (Spec.fe q i).grads c k)).mul_const
        (Spec.fe q 0).jxw
    simp only [valuesAt_eq, gradsAt_eq, fieldValue_along _ u w hlen, fieldGrad_along _ u w hlen]
    refine hp.congr_deriv ?_
    unfold Spec.volumeWork
    simp only [valuesAt_eq, gradsAt_eq]
    rw [Finset.sum_mul, fields_length, List.length_map]
    apply Finset.sum_congr rfl
    intro i hi
    rw [hJ _ hmem q hq i (by simpa using hi), fields_vec', vecs_getD]
  · unfold overFaces
    refine hasDerivAt_list_sum d.facesIn.zipIdx (fun bd t => ((bd.1.zip (d.p.faceCells.getD bd.2 [])).map fun face =>
      (face.1.map fun q => Spec.surfaceWork (fields d.p.vars) (cellNodes d.p face.2) (sf bd.2) (along u w t) (along u w t) q).sum).sum) _ 0 ?_
    intro bd _
    refine hasDerivAt_list_sum (bd.1.zip (d.p.faceCells.getD bd.2 [])) (fun face t =>
      (face.1.map fun q => Spec.surfaceWork (fields d.p.vars) (cellNodes d.p face.2) (sf bd.2) (along u w t) (along u w t) q).sum) _ 0 ?_
    intro face _
    refine hasDerivAt_list_sum face.1 (fun q t =>
      Spec.surfaceWork (fields d.p.vars) (cellNodes d.p face.2) (sf bd.2) (along u w t) (along u w t) q) _ 0 ?_
    intro q _
    simp only [surfaceWork_along _ _ sf hs _ u w hlen]
    simpa using ((hasDerivAt_id (0 : ℝ)).mul_const
      (Spec.surfaceWork (fields d.p.vars) (cellNodes d.p face.2) (sf bd.2) u w q)).const_add
        (Spec.surfaceWork (fields d.p.vars) (cellNodes d.p face.2) (sf bd.2) u u q)

/-- **C84, minimisers of the potential are equilibria.** -/
theorem C84_potential_minimiser_is_equilibrium (d : Discretization ℝ (List (QPoint ℝ)) (List (QPoint ℝ))) (h : DiscOK d) (dim : ℕ)
    (psi : List (List ℝ) → List (List (List ℝ)) → List ℝ → List ℝ → ℝ) (wf : WeakForm ℝ) (sf : ℕ → SurfaceForm ℝ)
    (hpsi : IsFormGradientOf (d.p.vars.map Var.vec) dim psi wf) (hs : DeadLoads sf) (hJ : SharedWeights d)
    (hk : FormKernels d dim wf sf) (u : List ℝ) (hu : u.length = d.p.n) (rows : List ℕ)
    (hmin : ∀ x : List ℝ, x.length = d.p.n → (∀ i ∈ rows, x.getD i 0 = u.getD i 0) →
      potential d dim psi sf u ≤ potential d dim psi sf x)
    (i : ℕ) (hi : i < d.p.n) (hfree : i ∉ rows) : (d.residualAt u).getD i 0 = 0 := by
  set w : List ℝ := (List.replicate d.p.n 0).set i 1 with hw
  have hlen : u.length = w.length := by simp [hw, hu]
  have hd := C84_residual_is_the_potential_gradient d h dim psi wf sf hpsi hs hJ hk u w hlen
  rw [hw, inner_single d.p.n i hi] at hd
  have h0 : along u w 0 = u := by
    apply List.ext_getElem (along_length u w hlen 0)
    intro j h1 h2
    have := along_getD u w hlen 0 j
    rw [List.getD_eq_getElem _ _ h1, List.getD_eq_getElem _ _ h2] at this
    simpa using this
  have hloc : IsLocalMin (fun t => potential d dim psi sf (along u w t)) 0 := by
    apply Filter.Eventually.of_forall
    intro t
    simp only [h0]
    apply hmin
    · rw [along_length u w hlen, hu]
    · intro j hj
      have hne : i ≠ j := by rintro rfl; exact hfree hj
      rw [along_getD u w hlen]
      have : w.getD j 0 = 0 := by
        rw [hw]
        simp only [List.getD_eq_getElem?_getD, List.getElem?_set_ne hne, List.getElem?_replicate]
        split <;> rfl
      rw [this]; ring
  exact hloc.hasDerivAt_eq_zero hd

end Verif.Props
