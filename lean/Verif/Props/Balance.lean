import Verif.Props.Kernels
import Verif.Props.Geometry
import Verif.Spec.Balance
import Verif.Model.ElementData

/-!
# C83: balance of forces and moments

The specification is `Verif.Spec.Balance`. Testing the assembled residual with affine fields
(`C82_residual_is_the_weak_form`) gives the balance laws of the discrete problem.
-/

namespace Verif.Props

open Verif.Model

section
variable {K : Type*} [CommRing K]

/-- The global vector with value `W node comp` at the nodes of variable `i` and zero for the others. -/
def fieldVector (vars : List Var) (i : ℕ) (W : ℕ → ℕ → K) : List K :=
  (List.range (numDofs vars)).map (fun d =>
    ∑ node ∈ Finset.range (vars.getD i noVar).numNodes, ∑ comp ∈ Finset.range (vars.getD i noVar).vec,
      if Spec.dofNumber (fields vars) i node comp = d then W node comp else 0)

theorem fieldVector_getD (vars : List Var) (i : ℕ) (hi : i < vars.length) (W : ℕ → ℕ → K) (j node comp : ℕ)
    (h : ValidTriple vars j node comp) :
    (fieldVector vars i W).getD (Spec.dofNumber (fields vars) j node comp) 0
      = if j = i then W node comp else 0 := by
  have hlt := dofNumber_lt vars h.1 h.2.1 h.2.2
  unfold fieldVector
  rw [List.getD_eq_getElem _ _ (by simpa using hlt)]
  simp only [List.getElem_map, List.getElem_range]
  by_cases hj : j = i
  · subst hj
    rw [if_pos rfl, Finset.sum_eq_single node, Finset.sum_eq_single comp, if_pos rfl]
    · intro c hc hne
      apply if_neg
      intro e
      have := dof_inj vars ⟨h.1, h.2.1, by simpa [noVar] using hc⟩ h e
      omega
    · intro hn
      exact absurd (Finset.mem_range.mpr h.2.2) hn
    · intro b hb hne
      apply Finset.sum_eq_zero
      intro c hc
      apply if_neg
      intro e
      have := dof_inj vars ⟨h.1, by simpa [noVar] using hb, by simpa [noVar] using hc⟩ h e
      omega
    · intro hn
      exact absurd (Finset.mem_range.mpr h.2.1) hn
  · rw [if_neg hj]
    apply Finset.sum_eq_zero
    intro b hb
    apply Finset.sum_eq_zero
    intro c hc
    apply if_neg
    intro e
    have := dof_inj vars ⟨hi, by simpa [noVar] using hb, by simpa [noVar] using hc⟩ h e
    omega

theorem inner_fieldVector (vars : List Var) (i : ℕ) (hi : i < vars.length) (r : List K) (W : ℕ → ℕ → K) :
    Spec.inner (numDofs vars) r (fieldVector vars i W) =
      ∑ node ∈ Finset.range (vars.getD i noVar).numNodes, ∑ comp ∈ Finset.range (vars.getD i noVar).vec,
        Spec.nodalForce (fields vars) r i node comp * W node comp := by
  unfold Spec.inner fieldVector
  have h1 : ∀ d ∈ Finset.range (numDofs vars), r.getD d 0 * ((List.range (numDofs vars)).map (fun d =>
      ∑ node ∈ Finset.range (vars.getD i noVar).numNodes, ∑ comp ∈ Finset.range (vars.getD i noVar).vec,
        if Spec.dofNumber (fields vars) i node comp = d then W node comp else 0)).getD d 0
      = ∑ node ∈ Finset.range (vars.getD i noVar).numNodes, ∑ comp ∈ Finset.range (vars.getD i noVar).vec,
        if Spec.dofNumber (fields vars) i node comp = d then r.getD d 0 * W node comp else 0 := by
    intro d hd
    rw [List.getD_eq_getElem (List.map _ _) _ (by simpa using hd)]
    simp only [List.getElem_map, List.getElem_range, Finset.mul_sum, mul_ite, mul_zero]
  rw [Finset.sum_congr rfl h1, Finset.sum_comm]
  apply Finset.sum_congr rfl
  intro node hn
  rw [Finset.sum_comm]
  apply Finset.sum_congr rfl
  intro comp hc
  rw [Finset.sum_ite_eq, if_pos]
  · rfl
  · exact Finset.mem_range.mpr (dofNumber_lt vars hi (by simpa [noVar] using hn) (by simpa [noVar] using hc))

/-- What variable `i`'s data at the quadrature points must satisfy on a mesh with node coordinates `X`:
the hypotheses hold for every supported element type (`C83_reference_elements`). -/
structure MeshConsistent (d : Discretization K (List (QPoint K)) (List (QPoint K))) (dim i : ℕ)
    (X : ℕ → ℕ → K) : Prop where
  cellPos : ∀ cell ∈ d.cellsIn.zipIdx, ∀ q ∈ cell.1,
    Spec.InterpolatesPosition dim X ((cellNodes d.p cell.2).getD i []) (Spec.fe q i).vals q.x
  cellGrad : ∀ cell ∈ d.cellsIn.zipIdx, ∀ q ∈ cell.1,
    Spec.DifferentiatesPosition dim X ((cellNodes d.p cell.2).getD i []) (Spec.fe q i).grads
  facePos : ∀ bd ∈ d.facesIn.zipIdx, ∀ face ∈ bd.1.zip (d.p.faceCells.getD bd.2 []), ∀ q ∈ face.1,
    Spec.InterpolatesPosition dim X ((cellNodes d.p face.2).getD i []) (Spec.fe q i).vals q.x

theorem cellNodes_getD (p : Problem) (c j : ℕ) (hj : j < p.vars.length) :
    (cellNodes p c).getD j [] = (p.vars.getD j noVar).cells.getD c [] := by
  simp [cellNodes, List.getD_eq_getElem?_getD, hj]

theorem cellNode_lt (p : Problem) (h : p.WF) (c j : ℕ) (hj : j < p.vars.length) (a : ℕ)
    (ha : a < ((cellNodes p c).getD j []).length) :
    ((cellNodes p c).getD j []).getD a 0 < (p.vars.getD j noVar).numNodes := by
  rw [cellNodes_getD p c j hj] at ha ⊢
  have hv : p.vars.getD j noVar ∈ p.vars := by
    rw [List.getD_eq_getElem _ _ hj]; exact List.getElem_mem _
  have hw := h.vars _ hv
  by_cases hc : c < (p.vars.getD j noVar).cells.length
  · rw [List.getD_eq_getElem (p.vars.getD j noVar).cells _ hc] at ha ⊢
    rw [List.getD_eq_getElem _ _ ha]
    exact hw.nodes _ (List.getElem_mem _) _ (List.getElem_mem _)
  · rw [List.getD_eq_default _ _ (by omega)] at ha
    simp at ha

theorem fieldValue_fieldVector (p : Problem) (h : p.WF) (i : ℕ) (hi : i < p.vars.length) (W : ℕ → ℕ → K)
    (c j : ℕ) (hj : j < p.vars.length) (N : List K) (comp : ℕ) (hc : comp < (p.vars.getD j noVar).vec) :
    Spec.fieldValue (fields p.vars) (fieldVector p.vars i W) j ((cellNodes p c).getD j []) N comp
      = if j = i then ∑ a ∈ Finset.range ((cellNodes p c).getD j []).length,
          W (((cellNodes p c).getD j []).getD a 0) comp * N.getD a 0 else 0 := by
  unfold Spec.fieldValue
  have key : ∀ a ∈ Finset.range ((cellNodes p c).getD j []).length,
      (fieldVector p.vars i W).getD
        (Spec.dofNumber (fields p.vars) j (((cellNodes p c).getD j []).getD a 0) comp) 0 * N.getD a 0
      = if j = i then W (((cellNodes p c).getD j []).getD a 0) comp * N.getD a 0 else 0 := by
    intro a ha
    rw [fieldVector_getD p.vars i hi W j _ comp
      ⟨hj, cellNode_lt p h c j hj a (by simpa using ha), hc⟩]
    split <;> simp
  rw [Finset.sum_congr rfl key]
  split <;> simp

theorem fieldGrad_fieldVector (p : Problem) (h : p.WF) (i : ℕ) (hi : i < p.vars.length) (W : ℕ → ℕ → K)
    (c j : ℕ) (hj : j < p.vars.length) (G : List (List K)) (comp k : ℕ)
    (hc : comp < (p.vars.getD j noVar).vec) :
    Spec.fieldGrad (fields p.vars) (fieldVector p.vars i W) j ((cellNodes p c).getD j []) G comp k
      = if j = i then ∑ a ∈ Finset.range ((cellNodes p c).getD j []).length,
          W (((cellNodes p c).getD j []).getD a 0) comp * (G.getD a []).getD k 0 else 0 := by
  unfold Spec.fieldGrad
  have key : ∀ a ∈ Finset.range ((cellNodes p c).getD j []).length,
      (fieldVector p.vars i W).getD
        (Spec.dofNumber (fields p.vars) j (((cellNodes p c).getD j []).getD a 0) comp) 0 * (G.getD a []).getD k 0
      = if j = i then W (((cellNodes p c).getD j []).getD a 0) comp * (G.getD a []).getD k 0 else 0 := by
    intro a ha
    rw [fieldVector_getD p.vars i hi W j _ comp
      ⟨hj, cellNode_lt p h c j hj a (by simpa using ha), hc⟩]
    split <;> simp
  rw [Finset.sum_congr rfl key]
  split <;> simp

theorem affine_value (dim : ℕ) (X : ℕ → ℕ → K) (nodes : List ℕ) (N x : List K)
    (h : Spec.InterpolatesPosition dim X nodes N x) (A : ℕ → ℕ → K) (b : ℕ → K) (c : ℕ) :
    ∑ a ∈ Finset.range nodes.length, Spec.affine dim A b (X (nodes.getD a 0)) c * N.getD a 0
      = Spec.affine dim A b (fun l => x.getD l 0) c := by
  unfold Spec.affine
  simp only [add_mul, Finset.sum_add_distrib, Finset.sum_mul]
  rw [Finset.sum_comm]
  congr 1
  · apply Finset.sum_congr rfl
    intro l hl
    rw [← h.pos l (by simpa using hl), Finset.mul_sum]
    apply Finset.sum_congr rfl
    intro a _
    ring
  · rw [← Finset.mul_sum, h.one, mul_one]

theorem affine_grad (dim : ℕ) (X : ℕ → ℕ → K) (nodes : List ℕ) (G : List (List K))
    (h : Spec.DifferentiatesPosition dim X nodes G) (A : ℕ → ℕ → K) (b : ℕ → K) (c k : ℕ) (hk : k < dim) :
    ∑ a ∈ Finset.range nodes.length, Spec.affine dim A b (X (nodes.getD a 0)) c * (G.getD a []).getD k 0
      = A c k := by
  unfold Spec.affine
  simp only [add_mul, Finset.sum_add_distrib, Finset.sum_mul]
  rw [Finset.sum_comm, ← Finset.mul_sum, h.zero k hk, mul_zero, add_zero]
  have key : ∀ l ∈ Finset.range dim, ∑ a ∈ Finset.range nodes.length,
      A c l * X (nodes.getD a 0) l * (G.getD a []).getD k 0 = if l = k then A c l else 0 := by
    intro l hl
    have := h.delta l (by simpa using hl) k hk
    simp only [mul_assoc]
    rw [← Finset.mul_sum, this]
    split <;> simp
  rw [Finset.sum_congr rfl key, Finset.sum_ite_eq', if_pos (Finset.mem_range.mpr hk)]

/-- Integral over the mesh of a function of the cell's nodes and the quadrature point. -/
def overCells (d : Discretization K (List (QPoint K)) (List (QPoint K)))
    (f : List (List ℕ) → QPoint K → K) : K :=
  (d.cellsIn.zipIdx.map (fun cell => (cell.1.map (f (cellNodes d.p cell.2))).sum)).sum

/-- Integral over the loaded boundaries: the first argument of `f` is the boundary. -/
def overFaces (d : Discretization K (List (QPoint K)) (List (QPoint K)))
    (f : ℕ → List (List ℕ) → QPoint K → K) : K :=
  (d.facesIn.zipIdx.map (fun bd => ((bd.1.zip (d.p.faceCells.getD bd.2 [])).map (fun face =>
    (face.1.map (f bd.2 (cellNodes d.p face.2))).sum)).sum)).sum

/-- The mass term and gradient term of variable `i` at a quadrature point. -/
def massAt (d : Discretization K (List (QPoint K)) (List (QPoint K))) (dim : ℕ) (wf : WeakForm K) (u : List K)
    (i : ℕ) (nodes : List (List ℕ)) (q : QPoint K) (c : ℕ) : K :=
  ((wf (Spec.valuesAt (fields d.p.vars) nodes u q) (Spec.gradsAt (fields d.p.vars) nodes dim u q) q.x q.iv).1.getD i
    []).getD c 0

def stressAt (d : Discretization K (List (QPoint K)) (List (QPoint K))) (dim : ℕ) (wf : WeakForm K) (u : List K)
    (i : ℕ) (nodes : List (List ℕ)) (q : QPoint K) (c k : ℕ) : K :=
  (((wf (Spec.valuesAt (fields d.p.vars) nodes u q) (Spec.gradsAt (fields d.p.vars) nodes dim u q) q.x q.iv).2.getD i
    []).getD c []).getD k 0

/-- The surface term of variable `i` on boundary `s`. -/
def tractionAt (d : Discretization K (List (QPoint K)) (List (QPoint K))) (sf : ℕ → SurfaceForm K) (u : List K)
    (i s : ℕ) (nodes : List (List ℕ)) (q : QPoint K) (c : ℕ) : K :=
  ((sf s (Spec.valuesAt (fields d.p.vars) nodes u q) q.x q.iv).getD i []).getD c 0

theorem overCells_congr (d : Discretization K (List (QPoint K)) (List (QPoint K)))
    (f g : List (List ℕ) → QPoint K → K)
    (h : ∀ cell ∈ d.cellsIn.zipIdx, ∀ q ∈ cell.1, f (cellNodes d.p cell.2) q = g (cellNodes d.p cell.2) q) :
    overCells d f = overCells d g := by
  unfold overCells
  congr 1
  apply List.map_congr_left
  intro cell hc
  congr 1
  exact List.map_congr_left (h cell hc)

theorem overFaces_congr (d : Discretization K (List (QPoint K)) (List (QPoint K)))
    (f g : ℕ → List (List ℕ) → QPoint K → K)
    (h : ∀ bd ∈ d.facesIn.zipIdx, ∀ face ∈ bd.1.zip (d.p.faceCells.getD bd.2 []), ∀ q ∈ face.1,
      f bd.2 (cellNodes d.p face.2) q = g bd.2 (cellNodes d.p face.2) q) :
    overFaces d f = overFaces d g := by
  unfold overFaces
  congr 1
  apply List.map_congr_left
  intro bd hb
  congr 1
  apply List.map_congr_left
  intro face hf
  congr 1
  exact List.map_congr_left (h bd hb face hf)

theorem totalWork_eq (d : Discretization K (List (QPoint K)) (List (QPoint K))) (dim : ℕ)
    (wf : WeakForm K) (sf : ℕ → SurfaceForm K) (u w : List K) :
    totalWork d dim wf sf u w =
      overCells d (fun nodes q => Spec.volumeWork (fields d.p.vars) nodes dim wf u w q)
      + overFaces d (fun s nodes q => Spec.surfaceWork (fields d.p.vars) nodes (sf s) u w q) := rfl

theorem fields_vec' (vars : List Var) (i : ℕ) :
    ((fields vars).getD i ⟨0, 0⟩).vec = (vars.getD i noVar).vec := by
  simp only [fields, List.getD_eq_getElem?_getD, List.getElem?_map]
  cases vars[i]? <;> rfl

theorem fields_numNodes (vars : List Var) (i : ℕ) :
    ((fields vars).getD i ⟨0, 0⟩).numNodes = (vars.getD i noVar).numNodes := by
  simp only [fields, List.getD_eq_getElem?_getD, List.getElem?_map]
  cases vars[i]? <;> rfl

/-- **C83, affine test fields.** The work of the nodal residual forces of variable `i` on an affine
displacement of the nodes is the integral of the mass terms against that displacement, of the stress
against its gradient, and of the surface terms against it. -/
theorem C83_affine_work (d : Discretization K (List (QPoint K)) (List (QPoint K)))
    (h : DiscOK d) (dim : ℕ) (wf : WeakForm K) (sf : ℕ → SurfaceForm K)
    (hk : FormKernels d dim wf sf) (i : ℕ) (hi : i < d.p.vars.length) (X : ℕ → ℕ → K)
    (hX : MeshConsistent d dim i X) (u : List K) (A : ℕ → ℕ → K) (b : ℕ → K) :
    ∑ node ∈ Finset.range (d.p.vars.getD i noVar).numNodes, ∑ c ∈ Finset.range (d.p.vars.getD i noVar).vec,
        Spec.nodalForce (fields d.p.vars) (d.residualAt u) i node c * Spec.affine dim A b (X node) c
      = overCells d (fun nodes q =>
          (∑ c ∈ Finset.range (d.p.vars.getD i noVar).vec,
            massAt d dim wf u i nodes q c * Spec.affine dim A b (fun l => q.x.getD l 0) c
          + ∑ c ∈ Finset.range (d.p.vars.getD i noVar).vec, ∑ k ∈ Finset.range dim,
            stressAt d dim wf u i nodes q c k * A c k) * (Spec.fe q i).jxw)
        + overFaces d (fun s nodes q =>
          (∑ c ∈ Finset.range (d.p.vars.getD i noVar).vec,
            tractionAt d sf u i s nodes q c * Spec.affine dim A b (fun l => q.x.getD l 0) c)
              * (Spec.fe q i).jxw) := by
  have hw := C82_residual_is_the_weak_form d h dim wf sf hk u
    (fieldVector d.p.vars i (fun node c => Spec.affine dim A b (X node) c))
  have hn : d.p.n = numDofs d.p.vars := rfl
  rw [hn, inner_fieldVector _ _ hi, totalWork_eq] at hw
  rw [hw]
  congr 1
  · apply overCells_congr
    intro cell hc q hq
    unfold Spec.volumeWork
    simp only [fields_length, fields_vec']
    rw [Finset.sum_eq_single i]
    · congr 1
      congr 1
      · apply Finset.sum_congr rfl
        intro c hcc
        rw [fieldValue_fieldVector d.p h.wf i hi _ _ i hi _ _ (by simpa using hcc), if_pos rfl,
          affine_value dim X _ _ _ (hX.cellPos cell hc q hq)]
        rfl
      · apply Finset.sum_congr rfl
        intro c hcc
        apply Finset.sum_congr rfl
        intro k hkk
        rw [fieldGrad_fieldVector d.p h.wf i hi _ _ i hi _ _ _ (by simpa using hcc), if_pos rfl,
          affine_grad dim X _ _ (hX.cellGrad cell hc q hq) A b c k (by simpa using hkk)]
        rfl
    · intro j hj hne
      have hj' : j < d.p.vars.length := by simpa using hj
      rw [Finset.sum_eq_zero, Finset.sum_eq_zero, add_zero, zero_mul]
      · intro c hcc
        apply Finset.sum_eq_zero
        intro k _
        rw [fieldGrad_fieldVector d.p h.wf i hi _ _ j hj' _ _ _ (by simpa using hcc), if_neg hne, mul_zero]
      · intro c hcc
        rw [fieldValue_fieldVector d.p h.wf i hi _ _ j hj' _ _ (by simpa using hcc), if_neg hne, mul_zero]
    · intro hn'
      exact absurd (Finset.mem_range.mpr hi) hn'
  · apply overFaces_congr
    intro bd hb face hf q hq
    unfold Spec.surfaceWork
    simp only [fields_length, fields_vec']
    rw [Finset.sum_eq_single i]
    · congr 1
      apply Finset.sum_congr rfl
      intro c hcc
      rw [fieldValue_fieldVector d.p h.wf i hi _ _ i hi _ _ (by simpa using hcc), if_pos rfl,
        affine_value dim X _ _ _ (hX.facePos bd hb face hf q hq)]
      rfl
    · intro j hj hne
      have hj' : j < d.p.vars.length := by simpa using hj
      rw [Finset.sum_eq_zero, zero_mul]
      intro c hcc
      rw [fieldValue_fieldVector d.p h.wf i hi _ _ j hj' _ _ (by simpa using hcc), if_neg hne, mul_zero]
    · intro hn'
      exact absurd (Finset.mem_range.mpr hi) hn'

/-- **C83, balance of forces.** In every direction the nodal residual forces of a variable sum to the
integral of its mass terms plus the integral of its surface terms: the stresses contribute nothing,
whatever the material law and the displacement. -/
theorem C83_total_force (d : Discretization K (List (QPoint K)) (List (QPoint K)))
    (h : DiscOK d) (dim : ℕ) (wf : WeakForm K) (sf : ℕ → SurfaceForm K)
    (hk : FormKernels d dim wf sf) (i : ℕ) (hi : i < d.p.vars.length) (X : ℕ → ℕ → K)
    (hX : MeshConsistent d dim i X) (u : List K) (c : ℕ) (hc : c < (d.p.vars.getD i noVar).vec) :
    Spec.totalForce (fields d.p.vars) (d.residualAt u) i c
      = overCells d (fun nodes q => massAt d dim wf u i nodes q c * (Spec.fe q i).jxw)
        + overFaces d (fun s nodes q => tractionAt d sf u i s nodes q c * (Spec.fe q i).jxw) := by
  have hw := C83_affine_work d h dim wf sf hk i hi X hX u (fun _ _ => 0) (fun c' => if c' = c then 1 else 0)
  have haff : ∀ x : ℕ → K, ∀ c', Spec.affine dim (fun _ _ => 0) (fun c' => if c' = c then 1 else 0) x c'
      = if c' = c then (1 : K) else 0 := by
    intro x c'; simp [Spec.affine]
  simp only [haff, mul_ite, mul_one, mul_zero, Finset.sum_ite_eq', Finset.mem_range, hc, if_true,
    Finset.sum_const_zero, add_zero] at hw
  unfold Spec.totalForce
  rw [fields_numNodes]
  exact hw

/-- **C83, balance of moments.** For a displacement variable (at least as many components as the two axes
of the plane) the moment of the nodal residual forces is the moment of the mass terms and surface terms
plus the integral of the skew part of the stress; it vanishes for symmetric stresses. -/
theorem C83_total_moment (d : Discretization K (List (QPoint K)) (List (QPoint K)))
    (h : DiscOK d) (dim : ℕ) (wf : WeakForm K) (sf : ℕ → SurfaceForm K)
    (hk : FormKernels d dim wf sf) (i : ℕ) (hi : i < d.p.vars.length) (X : ℕ → ℕ → K)
    (hX : MeshConsistent d dim i X) (u : List K) (k l : ℕ) (hkd : k < dim) (hld : l < dim)
    (hkv : k < (d.p.vars.getD i noVar).vec) (hlv : l < (d.p.vars.getD i noVar).vec) :
    Spec.totalMoment (fields d.p.vars) X (d.residualAt u) i k l
      = overCells d (fun nodes q => (q.x.getD k 0 * massAt d dim wf u i nodes q l
            - q.x.getD l 0 * massAt d dim wf u i nodes q k
            + (stressAt d dim wf u i nodes q l k - stressAt d dim wf u i nodes q k l)) * (Spec.fe q i).jxw)
        + overFaces d (fun s nodes q => (q.x.getD k 0 * tractionAt d sf u i s nodes q l
            - q.x.getD l 0 * tractionAt d sf u i s nodes q k) * (Spec.fe q i).jxw) := by
  let A : ℕ → ℕ → K := fun c m => (if c = l ∧ m = k then 1 else 0) - (if c = k ∧ m = l then 1 else 0)
  have hw := C83_affine_work d h dim wf sf hk i hi X hX u A (fun _ => 0)
  have haff : ∀ x : ℕ → K, ∀ c, Spec.affine dim A (fun _ => 0) x c
      = (if c = l then x k else 0) - (if c = k then x l else 0) := by
    intro x c
    simp only [Spec.affine, A, add_zero, sub_mul, ite_mul, one_mul, zero_mul, Finset.sum_sub_distrib]
    congr 1
    · by_cases hcl : c = l
      · simp [hcl, hkd]
      · simp [hcl]
    · by_cases hck : c = k
      · simp [hck, hld]
      · simp [hck]
  have hsum : ∀ (n : ℕ) (f : ℕ → K) (xk xl : K), k < n → l < n →
      ∑ c ∈ Finset.range n, f c * ((if c = l then xk else 0) - (if c = k then xl else 0))
        = xk * f l - xl * f k := by
    intro n f xk xl h1 h2
    simp only [mul_sub, mul_ite, mul_zero, Finset.sum_sub_distrib, Finset.sum_ite_eq', Finset.mem_range, h1, h2,
      if_true]
    ring
  have hstress : ∀ (n : ℕ) (g : ℕ → ℕ → K), k < n → l < n →
      ∑ c ∈ Finset.range n, ∑ m ∈ Finset.range dim, g c m * A c m = g l k - g k l := by
    intro n g h1 h2
    simp only [A, mul_sub, mul_ite, mul_one, mul_zero, Finset.sum_sub_distrib]
    congr 1
    · rw [Finset.sum_eq_single l]
      · simp [hkd]
      · intro c _ hne; simp [hne]
      · intro hn; exact absurd (Finset.mem_range.mpr h2) hn
    · rw [Finset.sum_eq_single k]
      · simp [hld]
      · intro c _ hne; simp [hne]
      · intro hn; exact absurd (Finset.mem_range.mpr h1) hn
  simp only [haff, hsum _ _ _ _ hkv hlv, hstress _ _ hkv hlv] at hw
  unfold Spec.totalMoment
  rw [fields_numNodes]
  exact hw

/-- **C83, mean stress.** In a body without mass terms, the first moments of the residual forces are the
volume integral of the stress plus the moments of the surface terms (Hill's relation). -/
theorem C83_mean_stress (d : Discretization K (List (QPoint K)) (List (QPoint K)))
    (h : DiscOK d) (dim : ℕ) (wf : WeakForm K) (sf : ℕ → SurfaceForm K)
    (hk : FormKernels d dim wf sf) (i : ℕ) (hi : i < d.p.vars.length) (X : ℕ → ℕ → K)
    (hX : MeshConsistent d dim i X) (u : List K) (c k : ℕ) (hc : c < (d.p.vars.getD i noVar).vec) (hkd : k < dim) :
    ∑ node ∈ Finset.range (d.p.vars.getD i noVar).numNodes,
        Spec.nodalForce (fields d.p.vars) (d.residualAt u) i node c * X node k
      = overCells d (fun nodes q => (massAt d dim wf u i nodes q c * q.x.getD k 0
            + stressAt d dim wf u i nodes q c k) * (Spec.fe q i).jxw)
        + overFaces d (fun s nodes q => tractionAt d sf u i s nodes q c * q.x.getD k 0 * (Spec.fe q i).jxw) := by
  let A : ℕ → ℕ → K := fun c' m => if c' = c ∧ m = k then 1 else 0
  have hw := C83_affine_work d h dim wf sf hk i hi X hX u A (fun _ => 0)
  have haff : ∀ x : ℕ → K, ∀ c', Spec.affine dim A (fun _ => 0) x c' = if c' = c then x k else 0 := by
    intro x c'
    simp only [Spec.affine, A, add_zero, ite_mul, one_mul, zero_mul]
    by_cases hcl : c' = c
    · simp [hcl, hkd]
    · simp [hcl]
  have hstress : ∀ (n : ℕ) (g : ℕ → ℕ → K), c < n →
      ∑ c' ∈ Finset.range n, ∑ m ∈ Finset.range dim, g c' m * A c' m = g c k := by
    intro n g h1
    simp only [A, mul_ite, mul_one, mul_zero]
    rw [Finset.sum_eq_single c]
    · simp [hkd]
    · intro c' _ hne; simp [hne]
    · intro hn; exact absurd (Finset.mem_range.mpr h1) hn
  simp only [haff, hstress _ _ hc, mul_ite, mul_zero, Finset.sum_ite_eq', Finset.mem_range, hc, if_true] at hw
  exact hw

theorem overCells_zero (d : Discretization K (List (QPoint K)) (List (QPoint K)))
    (f : List (List ℕ) → QPoint K → K) (h : ∀ nodes q, f nodes q = 0) : overCells d f = 0 := by
  have : f = fun _ _ => 0 := by funext a b; exact h a b
  rw [this]
  simp [overCells]

theorem overFaces_zero (d : Discretization K (List (QPoint K)) (List (QPoint K)))
    (f : ℕ → List (List ℕ) → QPoint K → K) (h : ∀ s nodes q, f s nodes q = 0) : overFaces d f = 0 := by
  have : f = fun _ _ _ => 0 := by funext a b c; exact h a b c
  rw [this]
  simp [overFaces]

/-- **C83, internal forces.** A problem given only by a tensor map: its nodal forces sum to zero in every
direction, and if the tensor is symmetric their moment vanishes in every plane. -/
theorem C83_internal_forces_balanced (d : Discretization K (List (QPoint K)) (List (QPoint K)))
    (h : DiscOK d) (dim : ℕ) (tensor : List (List K) → List K → List (List K))
    (hk : FormKernels d dim (formOf none (some tensor)) (fun _ _ _ _ => []))
    (hi : 0 < d.p.vars.length) (X : ℕ → ℕ → K) (hX : MeshConsistent d dim 0 X) (u : List K) :
    (∀ c < (d.p.vars.getD 0 noVar).vec, Spec.totalForce (fields d.p.vars) (d.residualAt u) 0 c = 0) ∧
    ((∀ H iv, ∀ k < dim, ∀ l < dim, ((tensor H iv).getD k []).getD l 0 = ((tensor H iv).getD l []).getD k 0) →
      ∀ k < dim, ∀ l < dim, k < (d.p.vars.getD 0 noVar).vec → l < (d.p.vars.getD 0 noVar).vec →
        Spec.totalMoment (fields d.p.vars) X (d.residualAt u) 0 k l = 0) := by
  have hm : ∀ nodes q c, massAt d dim (formOf none (some tensor)) u 0 nodes q c = 0 := by
    intro nodes q c; simp [massAt, formOf]
  have ht : ∀ s nodes q c, tractionAt d (fun _ _ _ _ => []) u 0 s nodes q c = 0 := by
    intro s nodes q c; simp [tractionAt]
  constructor
  · intro c hc
    rw [C83_total_force d h dim _ _ hk 0 hi X hX u c hc, overCells_zero, overFaces_zero, add_zero]
    · intro s nodes q; rw [ht, zero_mul]
    · intro nodes q; rw [hm, zero_mul]
  · intro hsym k hkd l hld hkv hlv
    rw [C83_total_moment d h dim _ _ hk 0 hi X hX u k l hkd hld hkv hlv, overCells_zero, overFaces_zero, add_zero]
    · intro s nodes q; rw [ht, ht]; ring
    · intro nodes q
      rw [hm, hm]
      have : stressAt d dim (formOf none (some tensor)) u 0 nodes q l k
          = stressAt d dim (formOf none (some tensor)) u 0 nodes q k l := by
        simp only [stressAt, formOf, List.getD_cons_zero]
        exact hsym _ _ l hld k hkd
      rw [this]; ring

/-- **C83, reactions.** At a converged state the residual vanishes outside the constrained DOFs, so in
each direction the forces at the constrained DOFs of that direction (the reactions) sum to the total
load. -/
theorem C83_reactions_balance_loads (d : Discretization K (List (QPoint K)) (List (QPoint K)))
    (h : DiscOK d) (dim : ℕ) (wf : WeakForm K) (sf : ℕ → SurfaceForm K)
    (hk : FormKernels d dim wf sf) (i : ℕ) (hi : i < d.p.vars.length) (X : ℕ → ℕ → K)
    (hX : MeshConsistent d dim i X) (u : List K) (rows : List ℕ)
    (hconv : ∀ j < d.p.n, j ∉ rows → (d.residualAt u).getD j 0 = 0)
    (c : ℕ) (hc : c < (d.p.vars.getD i noVar).vec) :
    ∑ node ∈ (Finset.range (d.p.vars.getD i noVar).numNodes).filter
        (fun node => Spec.dofNumber (fields d.p.vars) i node c ∈ rows),
        Spec.nodalForce (fields d.p.vars) (d.residualAt u) i node c
      = overCells d (fun nodes q => massAt d dim wf u i nodes q c * (Spec.fe q i).jxw)
        + overFaces d (fun s nodes q => tractionAt d sf u i s nodes q c * (Spec.fe q i).jxw) := by
  rw [← C83_total_force d h dim wf sf hk i hi X hX u c hc]
  unfold Spec.totalForce
  rw [fields_numNodes, Finset.sum_filter]
  apply Finset.sum_congr rfl
  intro node hn
  split
  · rfl
  · rename_i hr
    exact (hconv _ (dofNumber_lt d.p.vars hi (by simpa [noVar] using hn) (by simpa [noVar] using hc)) hr).symm

end

section lagrange
variable {K : Type*} [Field K] {m : ℕ}

theorem sum_range_ofFn {n : ℕ} (f : Fin n → K) (g : ℕ → K) :
    ∑ a ∈ Finset.range n, g a * (List.ofFn f).getD a 0 = ∑ a : Fin n, g a * f a := by
  rw [← Fin.sum_univ_eq_sum_range (fun a => g a * (List.ofFn f).getD a 0)]
  apply Finset.sum_congr rfl
  intro a _
  rw [List.getD_eq_getElem _ _ (by simp)]
  simp

theorem ofFn_ofFn_getD {n d : ℕ} (f : Fin n → Fin d → K) (a k : ℕ) (hk : k < d) :
    ((List.ofFn (fun a => List.ofFn (f a))).getD a []).getD k 0 = (List.ofFn (fun a => f a ⟨k, hk⟩)).getD a 0 := by
  by_cases ha : a < n
  · rw [List.getD_eq_getElem (List.ofFn fun a => List.ofFn (f a)) _ (by simpa using ha),
      List.getD_eq_getElem (List.ofFn fun a => f a ⟨k, hk⟩) _ (by simpa using ha)]
    simp only [List.getElem_ofFn]
    rw [List.getD_eq_getElem _ _ (by simpa using hk)]
    simp
  · rw [List.getD_eq_default (List.ofFn fun a => List.ofFn (f a)) _ (by simpa using ha),
      List.getD_eq_default (List.ofFn fun a => f a ⟨k, hk⟩) _ (by simpa using ha)]
    simp

/-- **C83, reference elements.** On every cell and face of a mesh of any supported type, at every reference
point, the tabulated shape functions interpolate the position; where the Jacobian is invertible the
physical gradients differentiate it. So the balance laws hold on every such mesh. -/
theorem C83_reference_elements (e : EleType) (pts : Fin m → K × K × K) (w : Fin m → K)
    (X : ℕ → ℕ → K) (nodes : List ℕ) (hn : nodes.length = e.reOrder.length) (q : Fin m) :
    Spec.InterpolatesPosition e.dim X nodes (List.ofFn ((e.refElem e.dim pts w).vals q))
      (List.ofFn ((e.refElem e.dim pts w).quadPoint (coordsOf X nodes) q)) ∧
    (((e.refElem e.dim pts w).jacobian (coordsOf X nodes) q).det ≠ 0 →
      Spec.DifferentiatesPosition e.dim X nodes
        (List.ofFn (fun a => List.ofFn ((e.refElem e.dim pts w).physGrads (coordsOf X nodes) q a)))) := by
  have hcons := refElem_consistent e e.dim pts w
  refine ⟨⟨?_, ?_⟩, ?_⟩
  · rw [hn]
    have := sum_range_ofFn ((e.refElem e.dim pts w).vals q) (fun _ => 1)
    simp only [one_mul] at this
    rw [this, hcons.vals]
  · intro l hl
    rw [hn, sum_range_ofFn ((e.refElem e.dim pts w).vals q) (fun a => X (nodes.getD a 0) l),
      List.getD_eq_getElem _ _ (by simpa using hl)]
    simp only [List.getElem_ofFn, RefElem.quadPoint, coordsOf]
    apply Finset.sum_congr rfl
    intro a _
    ring
  · intro hdet
    constructor
    · intro k hk
      rw [hn]
      simp only [ofFn_ofFn_getD _ _ k hk]
      have := sum_range_ofFn (fun a => (e.refElem e.dim pts w).physGrads (coordsOf X nodes) q a ⟨k, hk⟩) (fun _ => 1)
      simp only [one_mul] at this
      rw [this]
      have h2 := C78_translation_has_no_gradient (vec := 1) e pts w (coordsOf X nodes) q (fun _ => 1) 0 ⟨k, hk⟩
      simpa [RefElem.gradient] using h2
    · intro l hl k hk
      rw [hn]
      simp only [ofFn_ofFn_getD _ _ k hk]
      rw [sum_range_ofFn (fun a => (e.refElem e.dim pts w).physGrads (coordsOf X nodes) q a ⟨k, hk⟩)
        (fun a => X (nodes.getD a 0) l)]
      have h2 := gradient_affine (vec := 1) (e.refElem e.dim pts w) hcons (coordsOf X nodes) q hdet
        (fun _ j => if j = ⟨l, hl⟩ then 1 else 0) (fun _ => 0) 0 ⟨k, hk⟩
      simp only [RefElem.gradient, affineValues, ite_mul, one_mul, zero_mul, Finset.sum_ite_eq',
        Finset.mem_univ, if_true, add_zero, Fin.mk.injEq] at h2
      rw [show (if l = k then (1 : K) else 0) = if k = l then 1 else 0 by simp [eq_comm]]
      exact h2

/-- A one-variable problem whose arrays are those feax computes from a mesh of one of the supported types: cells with
invertible Jacobians at the quadrature points, faces at arbitrary reference points. -/
structure TabulatedMesh (d : Discretization K (List (QPoint K)) (List (QPoint K))) (e : EleType)
    (X : ℕ → ℕ → K) : Prop where
  var : d.p.vars.length = 1
  nn : (d.p.vars.getD 0 noVar).nn = e.reOrder.length
  cells : ∀ cell ∈ d.cellsIn.zipIdx, ∃ (m : ℕ) (pts : Fin m → K × K × K) (w : Fin m → K) (iv : Fin m → List K),
    cell.1 = (e.refElem e.dim pts w).cellPoints (coordsOf X ((d.p.vars.getD 0 noVar).cells.getD cell.2 [])) iv ∧
    ∀ q, ((e.refElem e.dim pts w).jacobian (coordsOf X ((d.p.vars.getD 0 noVar).cells.getD cell.2 [])) q).det ≠ 0
  faces : ∀ bd ∈ d.facesIn.zipIdx, ∀ face ∈ bd.1.zip (d.p.faceCells.getD bd.2 []),
    ∃ (m : ℕ) (pts : Fin m → K × K × K) (w : Fin m → K) (iv : Fin m → List K) (norm : (Fin e.dim → K) → K)
      (normal : Fin e.dim → K),
      face.1 = (e.refElem e.dim pts w).facePoints norm normal
        (coordsOf X ((d.p.vars.getD 0 noVar).cells.getD face.2 [])) iv

/-- **C83, every mesh.** The hypothesis of the balance theorems holds on every mesh of a supported type with invertible Jacobians. -/
theorem C83_every_mesh (d : Discretization K (List (QPoint K)) (List (QPoint K))) (h : DiscOK d) (e : EleType)
    (X : ℕ → ℕ → K) (hm : TabulatedMesh d e X) : MeshConsistent d e.dim 0 X := by
  have h0 : 0 < d.p.vars.length := by rw [hm.var]; omega
  have hlen : ∀ c < d.p.numCells, ((d.p.vars.getD 0 noVar).cells.getD c []).length = e.reOrder.length := by
    intro c hc
    have hv : d.p.vars.getD 0 noVar ∈ d.p.vars := by
      rw [List.getD_eq_getElem _ _ h0]; exact List.getElem_mem _
    have hw := h.wf.vars _ hv
    rw [List.getD_eq_getElem _ _ (by rw [hw.rows]; exact hc), ← hm.nn]
    exact hw.width _ (List.getElem_mem _)
  have hcell : ∀ cell ∈ d.cellsIn.zipIdx, cell.2 < d.p.numCells := by
    intro cell hcell
    have hz := List.mem_zipIdx hcell
    rw [← h.cells]; omega
  refine ⟨?_, ?_, ?_⟩
  · intro cell hc q hq
    obtain ⟨m, pts, w, iv, he, hdet⟩ := hm.cells cell hc
    rw [he, RefElem.cellPoints, List.mem_ofFn] at hq
    obtain ⟨j, rfl⟩ := hq
    rw [cellNodes_getD d.p _ 0 h0]
    exact (C83_reference_elements e pts w X _ (hlen _ (hcell cell hc)) j).1
  · intro cell hc q hq
    obtain ⟨m, pts, w, iv, he, hdet⟩ := hm.cells cell hc
    rw [he, RefElem.cellPoints, List.mem_ofFn] at hq
    obtain ⟨j, rfl⟩ := hq
    rw [cellNodes_getD d.p _ 0 h0]
    exact (C83_reference_elements e pts w X _ (hlen _ (hcell cell hc)) j).2 (hdet j)
  · intro bd hb face hf q hq
    obtain ⟨m, pts, w, iv, norm, normal, he⟩ := hm.faces bd hb face hf
    rw [he, RefElem.facePoints, List.mem_ofFn] at hq
    obtain ⟨j, rfl⟩ := hq
    rw [cellNodes_getD d.p _ 0 h0]
    exact (C83_reference_elements e pts w X _
      (hlen _ (faceCells_lt h.wf bd.2 face.2 (List.of_mem_zip hf).2)) j).1

end lagrange

section example_

/-- The two line elements of C82, nodes at `0, 1, 2`. -/
theorem exFormDisc_consistent : MeshConsistent exFormDisc 1 1 (fun node _ => (node : ℚ)) where
  cellPos := by
    intro cell hc q hq
    simp only [exFormDisc, formDisc, List.zipIdx_cons, List.zipIdx_nil, List.mem_cons, List.not_mem_nil,
      or_false] at hc
    rcases hc with rfl | rfl <;>
    · simp only [List.mem_cons, List.not_mem_nil, or_false] at hq
      subst hq
      exact ⟨by decide +kernel, by decide +kernel⟩
  cellGrad := by
    intro cell hc q hq
    simp only [exFormDisc, formDisc, List.zipIdx_cons, List.zipIdx_nil, List.mem_cons, List.not_mem_nil,
      or_false] at hc
    rcases hc with rfl | rfl <;>
    · simp only [List.mem_cons, List.not_mem_nil, or_false] at hq
      subst hq
      exact ⟨by decide +kernel, by decide +kernel⟩
  facePos := by
    intro bd hb face hf q hq
    simp only [exFormDisc, formDisc, List.zipIdx_cons, List.zipIdx_nil, List.mem_cons, List.not_mem_nil,
      or_false] at hb
    subst hb
    simp only [exFormDisc, formDisc, exFormProblem, List.getD_cons_zero, List.zip_cons_cons, List.zip_nil_left,
      List.mem_cons, List.not_mem_nil, or_false] at hf
    subst hf
    simp only [List.mem_cons, List.not_mem_nil, or_false] at hq
    subst hq
    exact ⟨by decide +kernel, by decide +kernel⟩

/-- The hypotheses of the balance theorem are met, with non-zero loads. -/
example : Spec.totalForce (fields exFormDisc.p.vars) (exFormDisc.residualAt [1, 2, 4, 1, 0, 2, 1, 5, 3]) 1 1
    = 13 := by
  rw [C83_total_force exFormDisc exFormDisc_ok 1 exForm exSurfaceForm exFormDisc_kernels 1 (by decide) _
    exFormDisc_consistent _ 1 (by decide)]
  decide +kernel

/-- The triangle with nodes `(0,0)`, `(2,0)`, `(0,1)` and a displacement with two components. -/
def exTriProblem : Problem := ⟨[⟨2, 3, 3, [[0, 1, 2]]⟩], 1, [], .full⟩

def exTriX : ℕ → ℕ → ℚ := fun node l => (([[0, 0], [2, 0], [0, 1]] : List (List ℚ)).getD node []).getD l 0

/-- A symmetric, nonlinear stress. -/
def exStress (H : List (List ℚ)) (_ : List ℚ) : List (List ℚ) :=
  let h := fun a b => (H.getD a []).getD b 0
  [[h 0 0 * h 0 0, h 0 1 + h 1 0], [h 0 1 + h 1 0, 3 * h 1 1]]

def exTriDisc : Discretization ℚ (List (QPoint ℚ)) (List (QPoint ℚ)) :=
  formDisc exTriProblem 2 (formOf none (some exStress)) (fun _ _ _ _ => [])
    [[⟨[2 / 3, 1 / 3], [], [⟨[1 / 3, 1 / 3, 1 / 3], [[-1 / 2, -1], [1 / 2, 0], [0, 1]], 1⟩]⟩]] []

theorem exTriProblem_wf : exTriProblem.WF := by
  constructor
  · intro v hv
    simp only [exTriProblem, List.mem_cons, List.not_mem_nil, or_false] at hv
    subst hv
    exact ⟨by decide, by decide, by decide⟩
  · decide

theorem exTriDisc_ok : DiscOK exTriDisc := formDisc_ok _ exTriProblem_wf _ _ _ _ _ rfl .nil

theorem exTriDisc_kernels : FormKernels exTriDisc 2 (formOf none (some exStress)) (fun _ _ _ _ => []) where
  vol := fun _ _ => rfl
  surf := fun _ _ _ => rfl
  cellPts := by
    intro pts hpts q hq
    simp only [exTriDisc, formDisc, List.mem_cons, List.not_mem_nil, or_false] at hpts
    subst hpts
    simp only [List.mem_cons, List.not_mem_nil, or_false] at hq
    subst hq
    exact ⟨rfl, rfl⟩
  facePts := by
    intro fs hfs
    simp [exTriDisc, formDisc] at hfs

theorem exTriDisc_consistent : MeshConsistent exTriDisc 2 0 exTriX where
  cellPos := by
    intro cell hc q hq
    simp only [exTriDisc, formDisc, List.zipIdx_cons, List.zipIdx_nil, List.mem_cons, List.not_mem_nil,
      or_false] at hc
    subst hc
    simp only [List.mem_cons, List.not_mem_nil, or_false] at hq
    subst hq
    exact ⟨by decide +kernel, by decide +kernel⟩
  cellGrad := by
    intro cell hc q hq
    simp only [exTriDisc, formDisc, List.zipIdx_cons, List.zipIdx_nil, List.mem_cons, List.not_mem_nil,
      or_false] at hc
    subst hc
    simp only [List.mem_cons, List.not_mem_nil, or_false] at hq
    subst hq
    exact ⟨by decide +kernel, by decide +kernel⟩
  facePos := by
    intro bd hb
    simp [exTriDisc, formDisc] at hb

/-- The triangle meets the hypotheses of the internal balance, including symmetry of the stress; its
residual is not zero. -/
example (u : List ℚ) :
    Spec.totalForce (fields exTriDisc.p.vars) (exTriDisc.residualAt u) 0 1 = 0 ∧
    Spec.totalMoment (fields exTriDisc.p.vars) exTriX (exTriDisc.residualAt u) 0 0 1 = 0 := by
  have h := C83_internal_forces_balanced exTriDisc exTriDisc_ok 2 exStress exTriDisc_kernels (by decide) exTriX
    exTriDisc_consistent u
  refine ⟨h.1 1 (by decide), h.2 ?_ 0 (by decide) 1 (by decide) (by decide) (by decide)⟩
  intro H iv k hk l hl
  interval_cases k <;> interval_cases l <;> rfl

example : Spec.inner exTriDisc.p.n (exTriDisc.residualAt [0, 0, 2, 1, 0, 3]) [0, 0, 0, 1, 0, 0] = 1 / 4 := by
  rw [C82_residual_is_the_weak_form exTriDisc exTriDisc_ok 2 _ _ exTriDisc_kernels]
  decide +kernel

end example_

example := C83_affine_work exTriDisc exTriDisc_ok 2 _ _ exTriDisc_kernels 0 (by decide) exTriX exTriDisc_consistent
  [0, 0, 2, 1, 0, 3] (fun a b => a + 2 * b) (fun _ => 1)
example := C83_mean_stress exTriDisc exTriDisc_ok 2 _ _ exTriDisc_kernels 0 (by decide) exTriX exTriDisc_consistent
  [0, 0, 2, 1, 0, 3] 0 1 (by decide) (by decide)
example := C83_total_moment exTriDisc exTriDisc_ok 2 _ _ exTriDisc_kernels 0 (by decide) exTriX exTriDisc_consistent
  [0, 0, 2, 1, 0, 3] 0 1 (by decide) (by decide) (by decide) (by decide)
example := C83_reactions_balance_loads exTriDisc exTriDisc_ok 2 _ _ exTriDisc_kernels 0 (by decide) exTriX exTriDisc_consistent
  [0, 0, 0, 0, 0, 3] [0, 1, 2, 3, 4, 5] (by decide) 0 (by decide)
example := C83_reference_elements (K := ℚ) .TRI3 (fun _ : Fin 1 => (1 / 3, 1 / 3, 0)) (fun _ => 1 / 2) exTriX [0, 1, 2] rfl 0

end Verif.Props
