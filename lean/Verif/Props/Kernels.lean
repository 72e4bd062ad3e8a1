import Verif.Lemmas.Kernels
import Verif.Props.Solve

/-!
# C82: the assembled residual is the weak form

The specification is `Verif.Spec.WeakForm`. The theorems range over every mesh, any number of
variables, every weak form and surface form, every solution and every test vector.
-/

namespace Verif.Props

open Verif.Model

section work
variable {K : Type*} [CommRing K] {α β : Type*}

theorem elementsAt_eq (d : Discretization K α β) (h : DiscOK d) (u : List K) :
    elementsAt d u = d.cellsIn.zipIdx.map (fun q =>
        (⟨cellDofs d.p.vars q.2, (d.kv (q.1, gather 0 u (cellDofs d.p.vars q.2))).res,
          (d.kv (q.1, gather 0 u (cellDofs d.p.vars q.2))).jac⟩ : Spec.Elem K)) ++
      d.facesIn.zipIdx.flatMap (fun fb => (fb.1.zip (d.p.faceCells.getD fb.2 [])).map (fun q =>
        (⟨cellDofs d.p.vars q.2, (d.kf fb.2 (q.1, gather 0 u (cellDofs d.p.vars q.2))).res,
          (d.kf fb.2 (q.1, gather 0 u (cellDofs d.p.vars q.2))).jac⟩ : Spec.Elem K))) := by
  unfold elementsAt elements
  congr 1
  · apply List.ext_getElem
    · simp [cellItems, d.p.volInds_count, h.cells]
    · intro c h1 h2
      simp [cellItems, Problem.volInds, buildInds, cellDofs_eq_spec, cellNodes]
  · unfold faceItems
    have key : ∀ (st : ℕ) (fI : List (List β)) (fC : List (List ℕ)),
        List.Forall₂ (fun (a : List β) (b : List ℕ) => a.length = b.length) fI fC →
        (∀ k, d.p.faceCells.getD (st + k) [] = fC.getD k []) →
        ((List.zipWith (fun fs fc => fs.zip ((buildFaceInds d.p.vars fc).map (gather 0 u))) fI
          fC).zipIdx st).flatMap (fun fb => (fb.1.zip (d.p.faceCells.getD fb.2 [])).map (fun q =>
            (⟨Spec.elemDofs (fields d.p.vars) (cellNodes d.p q.2),
              (d.kf fb.2 q.1).res, (d.kf fb.2 q.1).jac⟩ : Spec.Elem K)))
        = (fI.zipIdx st).flatMap (fun fb => ((fb.1.zip (d.p.faceCells.getD fb.2 [])).map (fun q =>
            (⟨cellDofs d.p.vars q.2, (d.kf fb.2 (q.1, gather 0 u (cellDofs d.p.vars q.2))).res,
              (d.kf fb.2 (q.1, gather 0 u (cellDofs d.p.vars q.2))).jac⟩ : Spec.Elem K)))) := by
      intro st fI fC hf hk
      induction hf generalizing st with
      | nil => simp
      | cons hab hf ih =>
        rename_i a b l1 l2
        rw [List.zipWith_cons_cons, List.zipIdx_cons, List.zipIdx_cons, List.flatMap_cons,
          List.flatMap_cons]
        congr 1
        · have hb := hk 0
          simp only [Nat.add_zero, List.getD_cons_zero] at hb
          simp only [hb]
          apply List.ext_getElem
          · simp [buildFaceInds]
          · intro c h1 h2
            simp [buildFaceInds, cellDofs_eq_spec, cellNodes]
        · apply ih
          intro k
          have := hk (k + 1)
          rw [List.getD_cons_succ] at this
          rw [← this]
          congr 1
          omega
    exact key 0 d.facesIn d.p.faceCells h.faces (fun k => by rw [Nat.zero_add])

theorem faceCells_lt {p : Problem} (h : p.WF) (k c : ℕ) (hc : c ∈ p.faceCells.getD k []) :
    c < p.numCells := by
  by_cases hk : k < p.faceCells.length
  · rw [List.getD_eq_getElem _ _ hk] at hc
    exact h.faces _ (List.getElem_mem hk) c hc
  · rw [List.getD_eq_default _ _ (Nat.not_lt.mp hk)] at hc
    simp at hc

/-- Work of the residual: the sum of the element works. -/
theorem residual_work (d : Discretization K α β) (h : DiscOK d) (u w : List K) :
    Spec.inner d.p.n (d.residualAt u) w
      = (d.cellsIn.zipIdx.map (fun q => ldot (d.kv (q.1, gather 0 u (cellDofs d.p.vars q.2))).res
          (gather 0 w (cellDofs d.p.vars q.2)))).sum
        + (d.facesIn.zipIdx.map (fun fb => ((fb.1.zip (d.p.faceCells.getD fb.2 [])).map (fun q =>
          ldot (d.kf fb.2 (q.1, gather 0 u (cellDofs d.p.vars q.2))).res
            (gather 0 w (cellDofs d.p.vars q.2)))).sum)).sum := by
  unfold Discretization.residualAt
  rw [C04_residual_is_scatter_add d.p _ _ _ _ _ _ _ h.wf (h.shapes u) h.batch]
  have he : elements d.p d.kv d.kf (cellItems d.p d.cellsIn u) (faceItems d.p d.facesIn u)
      = elementsAt d u := rfl
  rw [he, elementsAt_eq d h u, assembled_work]
  · rw [List.map_append, List.sum_append, List.map_map, List.map_flatMap]
    congr 1
    rw [List.flatMap_def, List.sum_flatten, List.map_map]
    congr 1
    apply List.map_congr_left
    intro fb _
    simp only [Function.comp_apply, List.map_map]
    rfl
  · intro e he' x hx
    simp only [List.mem_append, List.mem_map, List.mem_flatMap] at he'
    rcases he' with ⟨q, hq, rfl⟩ | ⟨fb, hfb, q, hq, rfl⟩
    · have hq2 : q.2 < d.p.numCells := by
        have := List.mem_zipIdx hq
        rw [← h.cells]; omega
      exact mem_cellDofs_lt d.p.vars d.p.numCells q.2 h.wf.vars hq2 x hx
    · have hq2 : q.2 < d.p.numCells := faceCells_lt h.wf fb.2 q.2 (List.of_mem_zip hq).2
      exact mem_cellDofs_lt d.p.vars d.p.numCells q.2 h.wf.vars hq2 x hx
  · intro e he'
    simp only [List.mem_append, List.mem_map, List.mem_flatMap] at he'
    rcases he' with ⟨q, hq, rfl⟩ | ⟨fb, hfb, q, hq, rfl⟩
    · have hq2 : q.2 < d.p.numCells := by
        have := List.mem_zipIdx hq
        rw [← h.cells]; omega
      rw [h.volRes]
      exact (cellDofs_length d.p.vars d.p.numCells q.2 h.wf.vars hq2).symm
    · have hq2 : q.2 < d.p.numCells := faceCells_lt h.wf fb.2 q.2 (List.of_mem_zip hq).2
      rw [h.faceRes]
      exact (cellDofs_length d.p.vars d.p.numCells q.2 h.wf.vars hq2).symm

/-! ## The weak form -/

/-- A discretization whose items are quadrature data and whose kernels are those built from a weak
form and from one surface form per boundary. -/
structure FormKernels (d : Discretization K (List (QPoint K)) (List (QPoint K))) (dim : ℕ)
    (wf : WeakForm K) (sf : ℕ → SurfaceForm K) : Prop where
  vol : ∀ pts u, (d.kv (pts, u)).res = weakFormKernel d.p.vars dim wf pts u
  surf : ∀ k pts u, (d.kf k (pts, u)).res = surfaceFormKernel d.p.vars (sf k) pts u
  cellPts : ∀ pts ∈ d.cellsIn, ∀ q ∈ pts, PointOK d.p.vars q
  facePts : ∀ fs ∈ d.facesIn, ∀ pts ∈ fs, ∀ q ∈ pts, PointOK d.p.vars q

/-- The virtual work of the loads and internal forces at `u` on the test vector `w`. -/
def totalWork (d : Discretization K (List (QPoint K)) (List (QPoint K))) (dim : ℕ)
    (wf : WeakForm K) (sf : ℕ → SurfaceForm K) (u w : List K) : K :=
  (d.cellsIn.zipIdx.map (fun cell =>
      (cell.1.map (Spec.volumeWork (fields d.p.vars) (cellNodes d.p cell.2) dim wf u w)).sum)).sum
    + (d.facesIn.zipIdx.map (fun bd => ((bd.1.zip (d.p.faceCells.getD bd.2 [])).map (fun face =>
      (face.1.map (Spec.surfaceWork (fields d.p.vars) (cellNodes d.p face.2) (sf bd.2) u w)).sum)).sum)).sum

/-- **C82, weak form.** For every solution `u` and every test vector `w`, the inner product of the
assembled residual with `w` is the quadrature of the weak form: mass terms against the values of the
test field, gradient terms against its gradients, surface terms against its trace. -/
theorem C82_residual_is_the_weak_form (d : Discretization K (List (QPoint K)) (List (QPoint K)))
    (h : DiscOK d) (dim : ℕ) (wf : WeakForm K) (sf : ℕ → SurfaceForm K)
    (hk : FormKernels d dim wf sf) (u w : List K) :
    Spec.inner d.p.n (d.residualAt u) w = totalWork d dim wf sf u w := by
  rw [residual_work d h u w]
  unfold totalWork
  congr 1
  · congr 1
    apply List.map_congr_left
    intro q hq
    have hz := List.mem_zipIdx hq
    have hq2 : q.2 < d.p.numCells := by rw [← h.cells]; omega
    have hmem : q.1 ∈ d.cellsIn := by
      have := hz.2.2; rw [this]; exact List.getElem_mem _
    rw [hk.vol, gather_elemDofs d.p.vars d.p.numCells q.2 h.wf.vars hq2,
      gather_elemDofs d.p.vars d.p.numCells q.2 h.wf.vars hq2,
      weakFormKernel_work h.wf.vars hq2 dim wf u w q.1 (hk.cellPts _ hmem)]
    rfl
  · congr 1
    apply List.map_congr_left
    intro fb hfb
    have hz := List.mem_zipIdx hfb
    have hfm : fb.1 ∈ d.facesIn := by
      have := hz.2.2; rw [this]; exact List.getElem_mem _
    congr 1
    apply List.map_congr_left
    intro q hq
    have hq2 : q.2 < d.p.numCells := faceCells_lt h.wf fb.2 q.2 (List.of_mem_zip hq).2
    rw [hk.surf, gather_elemDofs d.p.vars d.p.numCells q.2 h.wf.vars hq2,
      gather_elemDofs d.p.vars d.p.numCells q.2 h.wf.vars hq2,
      surfaceFormKernel_work h.wf.vars hq2 (sf fb.2) u w q.1
        (hk.facePts _ hfm _ (List.of_mem_zip hq).1)]
    rfl

theorem inner_single (n i : ℕ) (hi : i < n) (a : List K) :
    Spec.inner n a ((List.replicate n 0).set i 1) = a.getD i 0 := by
  unfold Spec.inner
  rw [Finset.sum_eq_single i]
  · simp [List.getD_eq_getElem?_getD, hi]
  · intro j hj hne
    have : j < n := by simpa using hj
    simp [List.getD_eq_getElem?_getD, List.getElem?_set, this, Ne.symm hne]
  · intro hn
    exact absurd (Finset.mem_range.mpr hi) hn

/-- **C82, equilibrium.** The residual vanishes at every DOF outside `rows` exactly when the weak form
vanishes for every test vector that is zero on `rows`: solving feax's equations is solving the Galerkin
problem. -/
theorem C82_equilibrium_is_galerkin (d : Discretization K (List (QPoint K)) (List (QPoint K)))
    (h : DiscOK d) (dim : ℕ) (wf : WeakForm K) (sf : ℕ → SurfaceForm K)
    (hk : FormKernels d dim wf sf) (rows : List ℕ) (u : List K) :
    (∀ i < d.p.n, i ∉ rows → (d.residualAt u).getD i 0 = 0) ↔
      ∀ w : List K, (∀ i ∈ rows, w.getD i 0 = 0) → totalWork d dim wf sf u w = 0 := by
  constructor
  · intro hr w hw
    rw [← C82_residual_is_the_weak_form d h dim wf sf hk]
    apply Finset.sum_eq_zero
    intro i hi
    by_cases hm : i ∈ rows
    · rw [hw i hm, mul_zero]
    · rw [hr i (by simpa using hi) hm, zero_mul]
  · intro hw i hi hm
    rw [← inner_single d.p.n i hi, C82_residual_is_the_weak_form d h dim wf sf hk]
    apply hw
    intro j hj
    have hne : i ≠ j := by rintro rfl; exact hm hj
    simp only [List.getD_eq_getElem?_getD, List.getElem?_set_ne hne]
    by_cases hjn : j < d.p.n
    · simp [hjn]
    · simp [List.getElem?_eq_none (l := List.replicate d.p.n (0 : K)) (i := j) (by simpa using hjn)]

/-- **C82, superposition.** If the kernels are the sums of two other problems' kernels on the same
mesh, the residual is the sum of their residuals. -/
theorem C82_residual_additive (d d₁ d₂ : Discretization K α β)
    (h : DiscOK d) (h₁ : DiscOK d₁) (h₂ : DiscOK d₂) (hp₁ : d₁.p = d.p) (hp₂ : d₂.p = d.p)
    (hc₁ : d₁.cellsIn = d.cellsIn) (hc₂ : d₂.cellsIn = d.cellsIn) (hf₁ : d₁.facesIn = d.facesIn)
    (hf₂ : d₂.facesIn = d.facesIn) (u : List K)
    (hv : ∀ q, (d.kv q).res = vadd (d₁.kv q).res (d₂.kv q).res)
    (hs : ∀ k q, (d.kf k q).res = vadd (d₁.kf k q).res (d₂.kf k q).res) :
    d.residualAt u = vadd (d₁.residualAt u) (d₂.residualAt u) := by
  have hadd : ∀ a b c : List K, a.length = c.length → b.length = c.length →
      ldot (vadd a b) c = ldot a c + ldot b c := by
    intro a b c ha hb
    have hab : (vadd a b).length = c.length := by simp [vadd, ha, hb]
    rw [ldot_eq_sum _ _ hab, ldot_eq_sum _ _ ha, ldot_eq_sum _ _ hb, hab, ha, hb,
      ← Finset.sum_add_distrib]
    apply Finset.sum_congr rfl
    intro i hi
    have hi' : i < c.length := by simpa using hi
    have e : (vadd a b).getD i 0 = a.getD i 0 + b.getD i 0 := by
      simp [vadd, List.getD_eq_getElem?_getD, ha, hb, hi']
    rw [e, add_mul]
  have key : ∀ w, Spec.inner d.p.n (d.residualAt u) w
      = Spec.inner d.p.n (d₁.residualAt u) w + Spec.inner d.p.n (d₂.residualAt u) w := by
    intro w
    have e1 := residual_work d₁ h₁ u w
    have e2 := residual_work d₂ h₂ u w
    rw [hp₁, hc₁, hf₁] at e1
    rw [hp₂, hc₂, hf₂] at e2
    rw [residual_work d h u w, e1, e2]
    have hlen : ∀ q : ℕ, q < d.p.numCells → (gather 0 w (cellDofs d.p.vars q)).length = d.p.ndof := by
      intro q hq
      have := cellDofs_length d.p.vars d.p.numCells q h.wf.vars hq
      simpa [gather, Problem.ndof] using this
    have hvol : (d.cellsIn.zipIdx.map (fun q =>
          ldot (d.kv (q.1, gather 0 u (cellDofs d.p.vars q.2))).res
            (gather 0 w (cellDofs d.p.vars q.2)))).sum
        = (d.cellsIn.zipIdx.map (fun q =>
            ldot (d₁.kv (q.1, gather 0 u (cellDofs d.p.vars q.2))).res
              (gather 0 w (cellDofs d.p.vars q.2)))).sum
          + (d.cellsIn.zipIdx.map (fun q =>
            ldot (d₂.kv (q.1, gather 0 u (cellDofs d.p.vars q.2))).res
              (gather 0 w (cellDofs d.p.vars q.2)))).sum := by
      rw [← List.sum_map_add]
      congr 1
      apply List.map_congr_left
      intro q hq
      have hz := List.mem_zipIdx hq
      have hq2 : q.2 < d.p.numCells := by rw [← h.cells]; omega
      rw [hv, hadd _ _ _ (by rw [h₁.volRes, hlen _ hq2, hp₁]) (by rw [h₂.volRes, hlen _ hq2, hp₂])]
    have hsurf : (d.facesIn.zipIdx.map (fun fb =>
          ((fb.1.zip (d.p.faceCells.getD fb.2 [])).map (fun q =>
          ldot (d.kf fb.2 (q.1, gather 0 u (cellDofs d.p.vars q.2))).res
            (gather 0 w (cellDofs d.p.vars q.2)))).sum)).sum
        = (d.facesIn.zipIdx.map (fun fb => ((fb.1.zip (d.p.faceCells.getD fb.2 [])).map (fun q =>
          ldot (d₁.kf fb.2 (q.1, gather 0 u (cellDofs d.p.vars q.2))).res
            (gather 0 w (cellDofs d.p.vars q.2)))).sum)).sum
          + (d.facesIn.zipIdx.map (fun fb => ((fb.1.zip (d.p.faceCells.getD fb.2 [])).map (fun q =>
          ldot (d₂.kf fb.2 (q.1, gather 0 u (cellDofs d.p.vars q.2))).res
            (gather 0 w (cellDofs d.p.vars q.2)))).sum)).sum := by
      rw [← List.sum_map_add]
      congr 1
      apply List.map_congr_left
      intro fb _
      rw [← List.sum_map_add]
      congr 1
      apply List.map_congr_left
      intro q hq
      have hq2 : q.2 < d.p.numCells := faceCells_lt h.wf fb.2 q.2 (List.of_mem_zip hq).2
      rw [hs, hadd _ _ _ (by rw [h₁.faceRes, hlen _ hq2, hp₁]) (by rw [h₂.faceRes, hlen _ hq2, hp₂])]
    rw [hvol, hsurf]
    ring
  have l0 := residualAt_length h u
  have l1 := residualAt_length h₁ u
  have l2 := residualAt_length h₂ u
  rw [hp₁] at l1
  rw [hp₂] at l2
  apply List.ext_getElem
  · simp [vadd, l0, l1, l2]
  · intro i hi1 hi2
    have hin : i < d.p.n := by omega
    have := key ((List.replicate d.p.n 0).set i 1)
    rw [inner_single _ _ hin, inner_single _ _ hin, inner_single _ _ hin,
      List.getD_eq_getElem _ _ hi1, List.getD_eq_getElem _ _ (by omega),
      List.getD_eq_getElem _ _ (by omega)] at this
    simp [vadd, this]

end work

/-! ## Which physics enters the kernel -/

section compose
variable {K : Type*} [CommRing K]

/-- The weak form of a single-variable problem given by a mass map and a tensor map. -/
def formOf (m : Option (List K → List K → List K → List K))
    (t : Option (List (List K) → List K → List (List K))) : WeakForm K :=
  fun vals grads x iv => ([match m with | some m => m (vals.getD 0 []) x iv | none => []],
    [match t with | some t => t (grads.getD 0 []) iv | none => []])

theorem vadd_grid (nn vec : ℕ) (f g : ℕ → ℕ → K) :
    vadd (grid nn vec f).flatten (grid nn vec g).flatten
      = (addRows (grid nn vec f) (grid nn vec g)).flatten := by
  induction nn generalizing f g with
  | zero => rfl
  | succ nn ih =>
    rw [grid_succ, grid_succ]
    simp only [addRows, List.zipWith_cons_cons, List.flatten_cons]
    unfold addRows at ih
    rw [← ih]
    unfold vadd
    rw [List.zipWith_append (by simp)]

theorem unflattenDof_single (v : Var) (flat : List K) :
    unflattenDof [v] flat = [(unflattenDof [v] flat).getD 0 []] := by
  simp [unflattenDof, unflatten]

theorem nodeSlice_single {A : Type*} (v : Var) (xs : List A) : nodeSlice [v] 0 xs = xs.take v.nn := by
  simp [nodeSlice, nodeOffset]

theorem weakFormKernel_single (v : Var) (dim : ℕ) (m : Option (List K → List K → List K → List K))
    (t : Option (List (List K) → List K → List (List K))) (pts : List (QPoint K)) (flat : List K) :
    weakFormKernel [v] dim (formOf m t) pts flat
      = (addRows
        (integrateVal v.vec v.nn (pts.map (fun q => (match m with
          | some m => m (opEval v.vec ((unflattenDof [v] flat).getD 0 []) (q.fe.getD 0 ⟨[], [], 0⟩).vals)
              q.x q.iv
          | none => [], (q.fe.getD 0 ⟨[], [], 0⟩).vals, q.jxw.getD 0 0))))
        (integrateGrad v.vec v.nn dim (pts.map (fun q => (match t with
          | some t => t (opGrad v.vec dim ((unflattenDof [v] flat).getD 0 []) (q.shapeGrads.take v.nn)) q.iv
          | none => [], q.vGradsJxW.take v.nn))))).flatten := by
  unfold weakFormKernel weakAt formOf
  simp [nodeSlice_single, List.map_map, Function.comp_def]

theorem integrateVal_none (vec nn : ℕ) {A : Type*} (l : List A) (N : A → List K) (J : A → K) :
    integrateVal vec nn (l.map (fun q => (([] : List K), N q, J q))) = grid nn vec (fun _ _ => 0) := by
  rw [integrateVal_grid]
  congr 1
  funext a c
  simp [List.map_map, Function.comp_def]

theorem integrateGrad_none (vec nn dim : ℕ) {A : Type*} (l : List A) (G : A → List (List K)) :
    integrateGrad vec nn dim (l.map (fun q => (([] : List (List K)), G q)))
      = grid nn vec (fun _ _ => 0) := by
  rw [integrateGrad_grid]
  congr 1
  funext a c
  simp [List.map_map, Function.comp_def]

/-- **C82, single-variable problems.** The mass map and the tensor map (or, when there is no tensor
map, the derivative of the energy density) are summed, and the kernel is the one of the weak form with
these terms. With neither, the kernel is the bare scalar `0.`. -/
theorem C82_single_variable (v : Var) (dim : ℕ) (ph : Physics K) (hu : ph.universal = none)
    (he : ph.extra = none) :
    ∃ k, createVolumeKernel [v] dim ph = .ok k ∧ ∀ pts flat, k pts flat =
      if ph.mass.isNone ∧ ph.tensor.isNone ∧ ph.energyGrad.isNone then none
      else some (weakFormKernel [v] dim (formOf ph.mass (ph.tensor.or ph.energyGrad)) pts flat) := by
  refine ⟨_, by
    simp only [createVolumeKernel, hu, List.length_singleton, gt_iff_lt, lt_irrefl, if_false]
    rfl, ?_⟩
  intro pts flat
  have hg0 : ∀ f : ℕ → ℕ → K, addRows (grid v.nn v.vec (fun _ _ => 0)) (grid v.nn v.vec f)
      = grid v.nn v.vec f := by
    intro f; rw [addRows_grid]; simp
  have hg1 : ∀ f : ℕ → ℕ → K, addRows (grid v.nn v.vec f) (grid v.nn v.vec (fun _ _ => 0))
      = grid v.nn v.vec f := by
    intro f; rw [addRows_grid]; simp
  rw [weakFormKernel_single]
  have key : ∀ (m : Option (List K → List K → List K → List K))
      (t : Option (List (List K) → List K → List (List K))),
      addTerm (addTerm (m.map (fun m => massKernel v m pts flat))
        (t.map (fun t => laplaceKernel v dim t pts flat))) none
      = if m.isNone ∧ t.isNone then none else some (addRows
        (integrateVal v.vec v.nn (pts.map (fun q => (match m with
          | some m => m (opEval v.vec ((unflattenDof [v] flat).getD 0 []) (q.fe.getD 0 ⟨[], [], 0⟩).vals)
              q.x q.iv
          | none => [], (q.fe.getD 0 ⟨[], [], 0⟩).vals, q.jxw.getD 0 0))))
        (integrateGrad v.vec v.nn dim (pts.map (fun q => (match t with
          | some t => t (opGrad v.vec dim ((unflattenDof [v] flat).getD 0 []) (q.shapeGrads.take v.nn)) q.iv
          | none => [], q.vGradsJxW.take v.nn))))).flatten := by
    intro m t
    cases m with
    | none =>
      cases t with
      | none => simp [addTerm]
      | some t =>
        simp only [Option.map_none, Option.map_some, addTerm, Option.isNone_none,
          Option.isNone_some, Bool.false_eq_true, and_false, if_false]
        rw [integrateVal_none, integrateGrad_grid, hg0]
        rfl
    | some m =>
      cases t with
      | none =>
        simp only [Option.map_none, Option.map_some, addTerm, Option.isNone_none,
          Option.isNone_some, Bool.false_eq_true, false_and, if_false]
        rw [integrateGrad_none, integrateVal_grid, hg1]
        rfl
      | some t =>
        simp only [Option.map_some, addTerm, Option.isNone_some, Bool.false_eq_true, false_and,
          if_false]
        rw [integrateGrad_grid, integrateVal_grid, ← vadd_grid]
        rfl
  rw [he, Option.map_none]
  cases ht : ph.tensor with
  | none =>
    refine (key ph.mass ph.energyGrad).trans ?_
    simp
  | some t =>
    refine (key ph.mass (some t)).trans ?_
    simp

/-- **C82, surface maps.** On a single-variable problem a surface map gives the kernel of the surface
form with that traction. -/
theorem C82_surface_map (v : Var) (ph : SurfacePhysics K) (k : ℕ)
    (t : List K → List K → List K → List K) (ht : ph.maps[k]? = some t) (hu : ph.universal[k]? = none)
    (pts : List (QPoint K)) (flat : List K) :
    createSurfaceKernel [v] ph k pts flat
      = .ok (some (surfaceFormKernel [v] (fun vals x iv => [t (vals.getD 0 []) x iv]) pts flat)) := by
  simp only [createSurfaceKernel, List.length_singleton, gt_iff_lt, lt_irrefl, if_false, ht, hu,
    Option.map_some, Option.map_none, addTerm]
  congr 2
  unfold surfaceFormKernel surfaceMapKernel
  simp [nodeSlice_single, List.map_map, Function.comp_def]

/-- **C82, composition.** A universal kernel replaces all the standard pieces; the extra kernel is
added on top of whichever base was chosen; a multi-variable problem without universal kernel and weak
form is rejected, and accepted otherwise. -/
theorem C82_composition (vars : List Var) (dim : ℕ) (ph : Physics K) :
    (∀ k, ph.universal = some k → ∃ ker, createVolumeKernel vars dim ph = .ok ker ∧
      ∀ pts u, ker pts u = match ph.extra with
        | none => some (k pts u)
        | some e => some (vadd (k pts u) (e pts u))) ∧
    (∀ e, ph.extra = some e → ∀ base, createVolumeKernel vars dim { ph with extra := none } = .ok base →
      ∃ ker, createVolumeKernel vars dim ph = .ok ker ∧ ∀ pts u, ker pts u = match base pts u with
        | none => some (e pts u)
        | some b => some (vadd b (e pts u))) ∧
    ((∃ s, createVolumeKernel vars dim ph = .error s) ↔
      1 < vars.length ∧ ph.universal = none ∧ ph.weakForm = none) ∧
    (1 < vars.length → ph.universal = none → ∀ wf, ph.weakForm = some wf → ph.extra = none →
      ∃ ker, createVolumeKernel vars dim ph = .ok ker ∧
        ∀ pts u, ker pts u = some (weakFormKernel vars dim wf pts u)) := by
  refine ⟨?_, ?_, ?_, ?_⟩
  · intro k hk
    refine ⟨_, by simp only [createVolumeKernel, hk]; rfl, ?_⟩
    intro pts u
    cases ph.extra <;> rfl
  · intro e he base hb
    unfold createVolumeKernel at hb ⊢
    simp only [he, Option.map_some] at hb ⊢
    cases hu : ph.universal with
    | some k =>
      simp only [hu, Except.ok.injEq] at hb
      refine ⟨_, rfl, ?_⟩
      intro pts u
      rw [← hb]
      rfl
    | none =>
      simp only [hu] at hb
      by_cases hv : vars.length > 1
      · simp only [if_pos hv] at hb ⊢
        cases hw : ph.weakForm with
        | none => simp [hw] at hb
        | some wf =>
          simp only [hw, Except.ok.injEq] at hb
          refine ⟨_, rfl, ?_⟩
          intro pts u
          rw [← hb]
          rfl
      · simp only [if_neg hv, Except.ok.injEq] at hb ⊢
        refine ⟨_, rfl, ?_⟩
        intro pts u
        rw [← hb]
        have aux : ∀ b : Option (List K), addTerm b (some (e pts u)) = match addTerm b none with
            | none => some (e pts u)
            | some b => some (vadd b (e pts u)) := by
          intro b; cases b <;> rfl
        exact aux _
  · constructor
    · rintro ⟨s, hs⟩
      unfold createVolumeKernel at hs
      cases hu : ph.universal with
      | some k => simp [hu] at hs
      | none =>
        simp only [hu] at hs
        by_cases hv : vars.length > 1
        · rw [if_pos hv] at hs
          cases hw : ph.weakForm with
          | none => exact ⟨hv, rfl, rfl⟩
          | some wf => simp [hw] at hs
        · rw [if_neg hv] at hs
          simp at hs
    · rintro ⟨hv, hu, hw⟩
      exact ⟨"ValueError", by simp [createVolumeKernel, hu, hw, hv]⟩
  · intro hv hu wf hw he
    refine ⟨_, by simp only [createVolumeKernel, hu, gt_iff_lt, hv, if_true, hw]; rfl, ?_⟩
    intro pts u
    rw [he]
    rfl

/-- **C82, surface composition** on multi-variable problems: the universal kernel wins over the surface
form, and surface maps are rejected when there is neither. -/
theorem C82_surface_composition (vars : List Var) (hv : 1 < vars.length) (ph : SurfacePhysics K) (k : ℕ)
    (pts : List (QPoint K)) (flat : List K) :
    (∀ u, ph.universal[k]? = some u → createSurfaceKernel vars ph k pts flat = .ok (some (u pts flat))) ∧
    (∀ sf, ph.universal[k]? = none → ph.forms[k]? = some sf →
      createSurfaceKernel vars ph k pts flat = .ok (some (surfaceFormKernel vars sf pts flat))) ∧
    ((∃ s, createSurfaceKernel vars ph k pts flat = .error s) ↔
      ph.universal[k]? = none ∧ ph.forms[k]? = none ∧ k < ph.maps.length) := by
  refine ⟨?_, ?_, ?_⟩
  · intro u hu
    simp [createSurfaceKernel, hv, hu]
  · intro sf hu hs
    simp only [createSurfaceKernel, gt_iff_lt, hv, if_true, hu, hs]
  · unfold createSurfaceKernel
    rw [if_pos hv]
    cases ph.universal[k]? with
    | some u => simp
    | none =>
      cases ph.forms[k]? with
      | some sf => simp
      | none =>
        by_cases hm : k < ph.maps.length
        · simp [hm]
        · simp [hm]

end compose

/-! ## A concrete problem -/

section example_
variable {K : Type*} [CommRing K]

theorem sum_range_getD (vars : List Var) (f : Var → ℕ) :
    ((List.range vars.length).map (fun i => f (vars.getD i noVar))).sum = (vars.map f).sum := by
  rw [map_eq_range_map vars noVar f]

theorem weakFormKernel_length (vars : List Var) (dim : ℕ) (wf : WeakForm K) (pts : List (QPoint K))
    (flat : List K) : (weakFormKernel vars dim wf pts flat).length = (vars.map (fun v => v.nn * v.vec)).sum := by
  unfold weakFormKernel
  rw [List.length_flatten, List.map_map, ← sum_range_getD]
  congr 1
  apply List.map_congr_left
  intro i _
  simp only [Function.comp_apply]
  rw [integrateVal_grid, integrateGrad_grid, addRows_grid]
  exact grid_length _ _ _

theorem surfaceFormKernel_length (vars : List Var) (sf : SurfaceForm K) (pts : List (QPoint K))
    (flat : List K) : (surfaceFormKernel vars sf pts flat).length = (vars.map (fun v => v.nn * v.vec)).sum := by
  unfold surfaceFormKernel
  rw [List.length_flatten, List.map_map, ← sum_range_getD]
  congr 1
  apply List.map_congr_left
  intro i _
  simp only [Function.comp_apply]
  rw [integrateVal_grid]
  exact grid_length _ _ _

/-- A discretization with the kernels of a weak form and surface forms (tangents left zero). -/
def formDisc (p : Problem) (dim : ℕ) (wf : WeakForm K) (sf : ℕ → SurfaceForm K)
    (cells : List (List (QPoint K))) (faces : List (List (List (QPoint K)))) :
    Discretization K (List (QPoint K)) (List (QPoint K)) where
  p := p
  kv := fun q => ⟨weakFormKernel p.vars dim wf q.1 q.2, List.replicate (p.ndof * p.ndof) 0⟩
  kf := fun k q => ⟨surfaceFormKernel p.vars (sf k) q.1 q.2, List.replicate (p.ndof * p.ndof) 0⟩
  zv := []
  zf := []
  cellsIn := cells
  facesIn := faces
  batch := 1

theorem formDisc_ok (p : Problem) (hp : p.WF) (dim : ℕ) (wf : WeakForm K) (sf : ℕ → SurfaceForm K)
    (cells : List (List (QPoint K))) (faces : List (List (List (QPoint K))))
    (hc : cells.length = p.numCells)
    (hf : List.Forall₂ (fun (a : List (List (QPoint K))) (b : List ℕ) => a.length = b.length) faces
      p.faceCells) : DiscOK (formDisc p dim wf sf cells faces) where
  wf := hp
  batch := Nat.one_pos
  cells := hc
  faces := hf
  volJac := fun a => by simp [formDisc]
  volRes := fun a => weakFormKernel_length _ _ _ _ _
  faceJac := fun k x => by simp [formDisc]
  faceRes := fun k x => surfaceFormKernel_length _ _ _ _

/-- Two line elements, a scalar field and a two-component field, a load on the last element. -/
def exFormProblem : Problem :=
  ⟨[⟨1, 3, 2, [[0, 1], [1, 2]]⟩, ⟨2, 3, 2, [[0, 1], [1, 2]]⟩], 2, [[1]], .full⟩

/-- Midpoint data of a line element of length one. -/
def exFormPoint (x : ℚ) : QPoint ℚ :=
  ⟨[x], [3], [⟨[1 / 2, 1 / 2], [[-1], [1]], 1⟩, ⟨[1 / 2, 1 / 2], [[-1], [1]], 1⟩]⟩

/-- A coupled nonlinear form. -/
def exForm : WeakForm ℚ := fun vals grads x iv =>
  ([[(vals.getD 0 []).getD 0 0 * (vals.getD 1 []).getD 1 0], [x.getD 0 0, iv.getD 0 0]],
    [[[((grads.getD 0 []).getD 0 []).getD 0 0 * iv.getD 0 0]],
      [[((grads.getD 1 []).getD 0 []).getD 0 0], [(vals.getD 0 []).getD 0 0]]])

def exSurfaceForm : ℕ → SurfaceForm ℚ := fun _ vals _ _ => [[5], [(vals.getD 1 []).getD 0 0, 7]]

def exFormDisc : Discretization ℚ (List (QPoint ℚ)) (List (QPoint ℚ)) :=
  formDisc exFormProblem 1 exForm exSurfaceForm [[exFormPoint (1 / 2)], [exFormPoint (3 / 2)]]
    [[[⟨[2], [], [⟨[0, 1], [[-1], [1]], 1⟩, ⟨[0, 1], [[-1], [1]], 1⟩]⟩]]]

theorem exFormProblem_wf : exFormProblem.WF := by
  constructor
  · intro v hv
    simp only [exFormProblem, List.mem_cons, List.not_mem_nil, or_false] at hv
    rcases hv with rfl | rfl <;> exact ⟨by decide, by decide, by decide⟩
  · decide

theorem exFormDisc_ok : DiscOK exFormDisc :=
  formDisc_ok _ exFormProblem_wf _ _ _ _ _ rfl (by
    refine .cons rfl .nil)

theorem exFormDisc_kernels : FormKernels exFormDisc 1 exForm exSurfaceForm where
  vol := fun _ _ => rfl
  surf := fun _ _ _ => rfl
  cellPts := by
    intro pts hpts q hq
    simp only [exFormDisc, formDisc, List.mem_cons, List.not_mem_nil, or_false] at hpts
    rcases hpts with rfl | rfl <;>
    · simp only [List.mem_cons, List.not_mem_nil, or_false] at hq
      subst hq
      exact ⟨rfl, rfl⟩
  facePts := by
    intro fs hfs pts hpts q hq
    simp only [exFormDisc, formDisc, List.mem_cons, List.not_mem_nil, or_false] at hfs
    subst hfs
    simp only [List.mem_cons, List.not_mem_nil, or_false] at hpts
    subst hpts
    simp only [List.mem_cons, List.not_mem_nil, or_false] at hq
    subst hq
    exact ⟨rfl, rfl⟩

/-- The hypotheses are met, and the common value is a non-trivial number. -/
example : Spec.inner exFormDisc.p.n (exFormDisc.residualAt [1, 2, 4, 1, 0, 2, 1, 5, 3])
      [1, 0, 2, 3, 1, 0, 1, 2, 2] = 521 / 8 := by
  rw [C82_residual_is_the_weak_form exFormDisc exFormDisc_ok 1 exForm exSurfaceForm exFormDisc_kernels]
  decide +kernel

end example_

end Verif.Props
