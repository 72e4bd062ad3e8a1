import Verif.Spec.Helmholtz
import Verif.Props.Vars
import Verif.Props.Energy
import Verif.Props.FormEnergy
import Verif.Props.Tmc
import Verif.Props.Reduced

/-!
# C96: the Helmholtz filter
-/

set_option linter.unusedSectionVars false

namespace Verif.Props
open Verif.Model

section
variable {K : Type} [Field K] [LinearOrder K] [IsStrictOrderedRing K]

theorem varProblem_ok (s : FilterMesh K) (hs : Spec.FilterMeshOk s) : VarProblemOk s.varProblem := by
  constructor
  · intro fe hfe
    simp only [FilterMesh.varProblem, List.mem_singleton] at hfe
    subst hfe
    exact ⟨rfl, fun r hr => (hs.vals r hr).1⟩
  · intro fe hfe
    simp only [FilterMesh.varProblem, List.mem_singleton] at hfe
    subst hfe
    exact hs.nn
  · intro fe hfe
    simp only [FilterMesh.varProblem, List.mem_singleton] at hfe
    subst hfe
    exact ⟨rfl, hs.cells⟩

/-- A nodal array of the filter reaches the integrand as the interpolated field. -/
theorem nodal_value (s : FilterMesh K) (hs : Spec.FilterMeshOk s) (hne : s.numNodes ≠ s.cells.length) (xs : List K)
    (hx : xs.length = s.numNodes) (c q : ℕ) (hc : c < s.cells.length) (hq : q < s.shapeVals.length) :
    assemblyValue s.varProblem 0 (.vec xs) c q = .ok (.sc (Spec.fieldAt s xs c q)) := by
  have h := C56_assembly_partial s.varProblem (varProblem_ok s hs) 0 (.node 0) (.vec xs)
    ⟨by simp [FilterMesh.varProblem], hx⟩
    ⟨by
      intro fe hfe
      simp only [FilterMesh.varProblem, List.mem_singleton] at hfe
      subst hfe
      exact hne, by intro j hj; omega⟩ c q hc hq
  rw [h]
  congr 1
  change NdArr.sc (interpolant s.varProblem 0 (fun n => nodalEntry (.vec xs) n 0) c q) = _
  congr 1
  unfold interpolant Spec.fieldAt
  rw [← List.sum_toFinset _ List.nodup_range, List.toFinset_range]
  apply Finset.sum_congr rfl
  intro a _
  simp only [FilterMesh.varProblem, VarProblem.fe, List.getD_cons_zero, nodalEntry]
  ring

theorem fieldAt_const (s : FilterMesh K) (hs : Spec.FilterMeshOk s) (x : K) (c q : ℕ) (hc : c < s.cells.length)
    (hq : q < s.shapeVals.length) : Spec.fieldAt s (List.replicate s.numNodes x) c q = x := by
  unfold Spec.fieldAt
  have hcm : s.cells.getD c [] ∈ s.cells := by rw [List.getD_eq_getElem _ _ hc]; exact List.getElem_mem _
  have hqm : s.shapeVals.getD q [] ∈ s.shapeVals := by rw [List.getD_eq_getElem _ _ hq]; exact List.getElem_mem _
  obtain ⟨h1, h2⟩ := hs.cells _ hcm
  obtain ⟨h3, h4⟩ := hs.vals _ hqm
  generalize s.cells.getD c [] = cell at *
  generalize s.shapeVals.getD q [] = N at *
  have e : ∀ a ∈ Finset.range s.nn, (List.replicate s.numNodes x).getD (cell.getD a 0) 0 * N.getD a 0 = x * N.getD a 0 := by
    intro a ha
    have ha' : a < cell.length := by rw [h1]; simpa using ha
    have := h2 _ (List.getElem_mem ha')
    rw [List.getD_eq_getElem cell _ ha', List.getD_eq_getElem _ _ (by simpa using this)]
    simp
  rw [Finset.sum_congr rfl e, ← Finset.mul_sum]
  have : ∑ a ∈ Finset.range s.nn, N.getD a 0 = N.sum := by
    rw [← h3, ← Fin.sum_univ_eq_sum_range (fun a => N.getD a 0), ← List.sum_ofFn]
    congr 1
    apply List.ext_getElem
    · simp
    · intro i h1 h2; simp
  rw [this, h4, mul_one]

/-- The quadrature point as the filter's kernel receives it. -/
def filterPoint (s : FilterMesh K) (r2 : K) (rho : List K) (c q : ℕ) : QPoint K :=
  ⟨[], [Spec.fieldAt s rho c q, r2], [⟨s.shapeVals.getD q [], s.grads c q, s.jxw c q⟩]⟩

theorem point_eq (s : FilterMesh K) (hs : Spec.FilterMeshOk s) (hne : s.numNodes ≠ s.cells.length) (r2 : K) (rho : List K)
    (hx : rho.length = s.numNodes) (c q : ℕ) (hc : c < s.cells.length) (hq : q < s.shapeVals.length) :
    s.point r2 rho c q = .ok (filterPoint s r2 rho c q) := by
  unfold FilterMesh.point
  rw [nodal_value s hs hne rho hx c q hc hq, nodal_value s hs hne _ (by simp) c q hc hq, fieldAt_const s hs r2 c q hc hq]
  rfl

/-- The kernel of the filter. -/
def filterKernel (s : FilterMesh K) : List (QPoint K) → List K → List K :=
  weakFormKernel s.problem.vars s.dim (formOf (some helmholtzMass) (some helmholtzTensor))

/-- The discretization of the filter problem. -/
def filterDisc (s : FilterMesh K) (r2 : K) (rho : List K) : Discretization K (List (QPoint K)) (List (QPoint K)) where
  p := s.problem
  kv := fun a => ⟨filterKernel s a.1 a.2, affineJac s.problem.ndof (filterKernel s a.1)⟩
  kf := fun _ _ => ⟨List.replicate s.problem.ndof 0, List.replicate (s.problem.ndof * s.problem.ndof) 0⟩
  zv := []
  zf := []
  cellsIn := (List.range s.cells.length).map fun c => (List.range s.shapeVals.length).map fun q => filterPoint s r2 rho c q
  facesIn := []
  batch := 1

theorem helmholtzDisc_eq (s : FilterMesh K) (hs : Spec.FilterMeshOk s) (hne : s.numNodes ≠ s.cells.length) (r2 : K)
    (rho : List K) (hx : rho.length = s.numNodes) : helmholtzDisc s r2 rho = .ok (filterDisc s r2 rho) := by
  unfold helmholtzDisc
  rw [mapM_ok_map _ _ (fun c => (List.range s.shapeVals.length).map fun q => filterPoint s r2 rho c q)]
  · obtain ⟨k, hk, hk2⟩ := C82_single_variable ⟨1, s.numNodes, s.nn, s.cells⟩ s.dim (helmholtzPhysics (K := K)) rfl rfl
    have hk' : createVolumeKernel s.problem.vars s.dim (helmholtzPhysics (K := K)) = .ok k := hk
    simp only [bind, Except.bind, hk']
    have e : ∀ pts u, (k pts u).getD [] = filterKernel s pts u := by
      intro pts u
      rw [hk2]
      rfl
    simp only [e]
    rfl
  · intro c hc
    apply mapM_ok_map
    intro q hq
    exact point_eq s hs hne r2 rho hx c q (by simpa using hc) (by simpa using hq)

theorem filterProblem_wf (s : FilterMesh K) (hs : Spec.FilterMeshOk s) : s.problem.WF := by
  constructor
  · intro v hv
    simp only [FilterMesh.problem, List.mem_singleton] at hv
    subst hv
    exact ⟨rfl, fun r hr => (hs.cells r hr).1, fun r hr => (hs.cells r hr).2⟩
  · intro fc hfc
    simp [FilterMesh.problem] at hfc

theorem filterDisc_ok (s : FilterMesh K) (hs : Spec.FilterMeshOk s) (r2 : K) (rho : List K) :
    DiscOK (filterDisc s r2 rho) where
  wf := filterProblem_wf s hs
  batch := Nat.one_pos
  cells := by simp [filterDisc, FilterMesh.problem]
  faces := by simp [filterDisc, FilterMesh.problem]
  volJac := fun a => by simp [filterDisc, affineJac]
  volRes := fun a => weakFormKernel_length _ _ _ _ _
  faceJac := fun k x => by simp [filterDisc]
  faceRes := fun k x => by simp [filterDisc]

/-- A `(nn, 1)` array, flattened. -/
theorem grid_one (nn : ℕ) (f : ℕ → ℕ → K) : (grid nn 1 f).flatten = (List.range nn).map (fun a => f a 0) := by
  unfold grid
  induction nn generalizing f with
  | zero => rfl
  | succ n ih =>
    rw [List.range_succ (n := n), List.map_append, List.flatten_append, ih, List.map_append]
    simp

theorem unflatten_one (s : FilterMesh K) (flat : List K) :
    (unflattenDof s.problem.vars flat).getD 0 [] = (List.range s.nn).map (fun a => ((flat.take s.nn).drop a).take 1) := by
  simp [unflattenDof, unflatten, FilterMesh.problem, reshapeRows, Var.numDofs]

theorem unflatten_one_getD (nn : ℕ) (flat : List K) (a : ℕ) (ha : a < nn) :
    (((List.range nn).map (fun a => ((flat.take nn).drop a).take 1)).getD a []).getD 0 0 = flat.getD a 0 := by
  have e : ((List.range nn).map (fun a => ((flat.take nn).drop a).take 1)).getD a [] = ((flat.take nn).drop a).take 1 := by
    simp [List.getD_eq_getElem?_getD, ha]
  rw [e]
  simp only [List.getD_eq_getElem?_getD]
  rw [List.getElem?_take_of_lt (by omega), List.getElem?_drop, List.getElem?_take_of_lt (by omega)]
  simp

/-- The kernel of the filter, entry by entry. -/
theorem filterKernel_eq (s : FilterMesh K) (pts : List (QPoint K)) (flat : List K) :
    filterKernel s pts flat = (List.range s.nn).map (fun a =>
      (pts.map fun q => ((∑ b ∈ Finset.range s.nn, flat.getD b 0 * (q.fe.getD 0 ⟨[], [], 0⟩).vals.getD b 0) - q.iv.getD 0 0)
          * (q.fe.getD 0 ⟨[], [], 0⟩).vals.getD a 0 * q.jxw.getD 0 0
        + ∑ k ∈ Finset.range s.dim, (q.iv.getD 1 0 * ∑ b ∈ Finset.range s.nn, flat.getD b 0
            * ((q.shapeGrads.take s.nn).getD b []).getD k 0) * ((q.vGradsJxW.take s.nn).getD a []).getD k 0).sum) := by
  have h := weakFormKernel_single (⟨1, s.numNodes, s.nn, s.cells⟩ : Var) s.dim (some helmholtzMass) (some helmholtzTensor)
    pts flat
  unfold filterKernel
  refine h.trans ?_
  have hu := unflatten_one s flat
  rw [show s.problem.vars = [⟨1, s.numNodes, s.nn, s.cells⟩] from rfl] at hu
  rw [hu, integrateVal_grid, integrateGrad_grid, addRows_grid, grid_one]
  apply List.map_congr_left
  intro a _
  simp only [List.map_map, Function.comp_def]
  rw [← List.sum_map_add]
  congr 1
  apply List.map_congr_left
  intro q _
  congr 1
  · simp only [helmholtzMass, opEval, List.range_one, List.map_cons, List.map_nil, List.getD_cons_zero, List.length_map,
      List.length_range]
    congr 3
    apply Finset.sum_congr rfl
    intro b hb
    rw [unflatten_one_getD _ _ _ (by simpa using hb)]
  · apply Finset.sum_congr rfl
    intro k hk
    congr 1
    have hk' : k < s.dim := by simpa using hk
    simp only [helmholtzTensor, opGrad, List.range_one, List.map_cons, List.map_nil, List.getD_cons_zero, List.length_map,
      List.length_range]
    rw [List.getD_eq_getElem _ _ (by simpa using hk')]
    simp only [List.getElem_map, List.getElem_range]
    congr 1
    apply Finset.sum_congr rfl
    intro b hb
    rw [unflatten_one_getD _ _ _ (by simpa using hb)]

/-- An affine kernel is its matrix times the unknowns plus its value at zero. -/
theorem affine_local (n : ℕ) (k : List K → List K) (A : ℕ → ℕ → K) (b : ℕ → K)
    (hk : ∀ u, k u = (List.range n).map fun a => (∑ j ∈ Finset.range n, A a j * u.getD j 0) + b a) (u : List K) :
    k u = vadd (localMul n (affineJac n k) u) (k (List.replicate n 0)) := by
  have h0 : k (List.replicate n 0) = (List.range n).map b := by
    rw [hk]
    apply List.map_congr_left
    intro a _
    rw [Finset.sum_eq_zero, zero_add]
    intro j hj
    have : j < n := by simpa using hj
    simp [List.getD_eq_getElem?_getD, this]
  have hj : ∀ a < n, ∀ j < n, (affineJac n k).getD (a * n + j) 0 = A a j := by
    intro a ha j hj
    have hlt : a * n + j < n * n := by nlinarith
    unfold affineJac
    rw [List.getD_eq_getElem _ _ (by simpa using hlt)]
    simp only [List.getElem_map, List.getElem_range]
    have e1 : (a * n + j) % n = j := by
      rw [Nat.add_comm, Nat.add_mul_mod_self_right, Nat.mod_eq_of_lt hj]
    have e2 : (a * n + j) / n = a := by
      rw [Nat.add_comm, Nat.add_mul_div_right _ _ (by omega), Nat.div_eq_of_lt hj, zero_add]
    rw [e1, e2, h0, hk]
    rw [List.getD_eq_getElem _ _ (by simpa using ha), List.getD_eq_getElem _ _ (by simpa using ha)]
    simp only [List.getElem_map, List.getElem_range]
    rw [Finset.sum_eq_single j]
    · simp [unitVector, List.getD_eq_getElem?_getD, hj]
    · intro i hi hne
      have : i < n := by simpa using hi
      simp [unitVector, List.getD_eq_getElem?_getD, this, List.getElem?_set, Ne.symm hne]
    · intro hn; exact absurd (Finset.mem_range.mpr hj) hn
  rw [h0, hk]
  unfold vadd localMul
  apply List.ext_getElem
  · simp
  · intro a h1 h2
    have ha : a < n := by simpa using h1
    simp only [List.getElem_map, List.getElem_range, List.getElem_zipWith]
    congr 1
    rw [← List.sum_toFinset _ List.nodup_range, List.toFinset_range]
    apply Finset.sum_congr rfl
    intro j hj'
    rw [hj a ha j (by simpa using hj')]

theorem filterKernel_affine (s : FilterMesh K) (pts : List (QPoint K)) (u : List K) :
    filterKernel s pts u
      = vadd (localMul s.nn (affineJac s.nn (filterKernel s pts)) u) (filterKernel s pts (List.replicate s.nn 0)) := by
  apply affine_local s.nn (filterKernel s pts)
    (fun a j => (pts.map fun q => (q.fe.getD 0 ⟨[], [], 0⟩).vals.getD j 0
          * (q.fe.getD 0 ⟨[], [], 0⟩).vals.getD a 0 * q.jxw.getD 0 0
        + ∑ k ∈ Finset.range s.dim, q.iv.getD 1 0
            * ((q.shapeGrads.take s.nn).getD j []).getD k 0 * ((q.vGradsJxW.take s.nn).getD a []).getD k 0).sum)
    (fun a => (pts.map fun q => - q.iv.getD 0 0 * (q.fe.getD 0 ⟨[], [], 0⟩).vals.getD a 0 * q.jxw.getD 0 0).sum)
  intro u
  rw [filterKernel_eq]
  apply List.map_congr_left
  intro a _
  induction pts with
  | nil => simp
  | cons q pts ih =>
    simp only [List.map_cons, List.sum_cons]
    rw [ih]
    simp only [add_mul, Finset.sum_add_distrib, sub_mul, Finset.sum_mul, Finset.mul_sum]
    rw [Finset.sum_comm (s := Finset.range s.dim)]
    have : ∀ (x y z w v t x' z' : K), x = x' → z = z' → x - y + z + (w + v) = x' + z' + w + (-y + v) := by
      intro x y z w v t x' z' h1 h2; rw [h1, h2]; ring
    rw [neg_mul, neg_mul]
    apply this
    · exact 0
    · apply Finset.sum_congr rfl; intro b _; ring
    · apply Finset.sum_congr rfl; intro b _
      apply Finset.sum_congr rfl; intro k _; ring

theorem problem_ndof (s : FilterMesh K) : s.problem.ndof = s.nn := by
  simp [FilterMesh.problem, Problem.ndof]

theorem problem_n (s : FilterMesh K) : s.problem.n = s.numNodes := by
  simp [FilterMesh.problem, Problem.n, numDofs, Var.numDofs]

/-- The linear problem solved by the filter: matrix and load of one element. -/
def filterLocal (s : FilterMesh K) (pts : List (QPoint K)) : Local K :=
  ⟨filterKernel s pts (List.replicate s.nn 0), affineJac s.nn (filterKernel s pts)⟩

def filterFace (s : FilterMesh K) : Local K := ⟨List.replicate s.nn 0, List.replicate (s.nn * s.nn) 0⟩

theorem filterDisc_linear (s : FilterMesh K) (r2 : K) (rho : List K) :
    LinearKernels (filterDisc s r2 rho) (filterLocal s) (fun _ _ => filterFace s) where
  vol := by
    intro a loc
    have := filterKernel_affine s a loc
    simp only [filterDisc, filterLocal, problem_ndof]
    rw [← this]
  face := by
    intro k b loc
    simp only [filterDisc, filterFace, problem_ndof]
    congr 1
    unfold vadd localMul
    apply List.ext_getElem
    · simp
    · intro i h1 h2
      simp [List.getD_eq_getElem?_getD, List.getElem?_replicate]
      symm
      apply List.sum_eq_zero
      intro x hx
      simp only [List.mem_map] at hx
      obtain ⟨b, _, rfl⟩ := hx
      split <;> simp

theorem filterDisc_shapes (s : FilterMesh K) (r2 : K) (rho : List K) :
    Shapes s.problem (filterLocal s) (fun _ _ => filterFace s) (filterDisc s r2 rho).cellsIn (filterDisc s r2 rho).facesIn where
  cells := by simp [filterDisc, FilterMesh.problem]
  faces := by simp [filterDisc, FilterMesh.problem]
  volJac := fun a => by simp [filterLocal, affineJac, problem_ndof]
  volRes := fun a => by rw [problem_ndof]; simp [filterLocal, filterKernel_eq]
  faceJac := fun k x => by simp [filterFace, problem_ndof]
  faceRes := fun k x => by simp [filterFace, problem_ndof]

end

section
variable {K : Type} [Field K] [LinearOrder K] [IsStrictOrderedRing K]

theorem filterDisc_kernels (s : FilterMesh K) (hs : Spec.FilterMeshOk s) (r2 : K) (rho : List K) :
    FormKernels (filterDisc s r2 rho) s.dim (formOf (some helmholtzMass) (some helmholtzTensor)) (fun _ _ _ _ => []) where
  vol := fun _ _ => rfl
  surf := by
    intro k pts u
    simp only [filterDisc, problem_ndof]
    unfold surfaceFormKernel
    simp only [FilterMesh.problem, List.length_singleton, List.range_one, List.map_cons, List.map_nil, List.getD_cons_zero,
      List.flatten_cons, List.flatten_nil, List.append_nil, integrateVal_grid, grid_one, List.map_map, Function.comp_def]
    apply List.ext_getElem
    · simp
    · intro i h1 h2
      simp
  cellPts := by
    intro pts hpts q hq
    simp only [filterDisc, List.mem_map, List.mem_range] at hpts
    obtain ⟨c, hc, rfl⟩ := hpts
    simp only [List.mem_map, List.mem_range] at hq
    obtain ⟨j, hj, rfl⟩ := hq
    constructor
    · simp only [filterPoint, filterDisc, FilterMesh.problem, List.map_cons, List.map_nil]
      rw [(hs.vals _ (by rw [List.getD_eq_getElem _ _ hj]; exact List.getElem_mem _)).1]
    · simp only [filterPoint, filterDisc, FilterMesh.problem, List.map_cons, List.map_nil]
      rw [(hs.grads c hc j hj).1]
  facePts := by
    intro fs hfs
    simp [filterDisc] at hfs

theorem scalar_value (s : FilterMesh K) (hs : Spec.FilterMeshOk s) (u : List K) (c q : ℕ) (hc : c < s.cells.length) :
    Spec.fieldValue (fields s.problem.vars) u 0 ((cellNodes s.problem c).getD 0 []) (s.shapeVals.getD q []) 0
      = Spec.fieldAt s u c q := by
  have hcm : s.cells.getD c [] ∈ s.cells := by rw [List.getD_eq_getElem _ _ hc]; exact List.getElem_mem _
  have h1' := (hs.cells _ hcm).1
  rw [List.getD_eq_getElem?_getD] at h1'
  simp [Spec.fieldValue, Spec.fieldAt, cellNodes, FilterMesh.problem, Spec.dofNumber, fields, Var.field, h1']

theorem scalar_grad (s : FilterMesh K) (hs : Spec.FilterMeshOk s) (u : List K) (c q k : ℕ) (hc : c < s.cells.length) :
    Spec.fieldGrad (fields s.problem.vars) u 0 ((cellNodes s.problem c).getD 0 []) (s.grads c q) 0 k
      = Spec.slopeAt s u c q k := by
  have hcm : s.cells.getD c [] ∈ s.cells := by rw [List.getD_eq_getElem _ _ hc]; exact List.getElem_mem _
  have h1' := (hs.cells _ hcm).1
  rw [List.getD_eq_getElem?_getD] at h1'
  simp [Spec.fieldGrad, Spec.slopeAt, cellNodes, FilterMesh.problem, Spec.dofNumber, fields, Var.field, h1']

theorem sum_zipIdx_range {A : Type*} (n : ℕ) (g : ℕ → A) (f : A → ℕ → K) :
    ((((List.range n).map g).zipIdx).map (fun x => f x.1 x.2)).sum = ∑ c ∈ Finset.range n, f (g c) c := by
  have e : (((List.range n).map g).zipIdx).map (fun x => f x.1 x.2) = (List.range n).map (fun c => f (g c) c) := by
    apply List.ext_getElem
    · simp
    · intro i h1 h2
      simp
  rw [e, ← List.sum_toFinset _ List.nodup_range, List.toFinset_range]

/-- **C96, the equation.** The residual of the filter problem tested with a field `w` is
`∫ ũ w + r² ∫ ∇ũ·∇w - ∫ ρ w`. -/
theorem filter_work (s : FilterMesh K) (hs : Spec.FilterMeshOk s) (r2 : K) (rho u w : List K) :
    Spec.inner s.numNodes ((filterDisc s r2 rho).residualAt u) w
      = Spec.l2 s u w + r2 * Spec.dirichlet s u w - Spec.l2 s rho w := by
  have h := C82_residual_is_the_weak_form (filterDisc s r2 rho) (filterDisc_ok s hs r2 rho) s.dim _ _
    (filterDisc_kernels s hs r2 rho) u w
  rw [show (filterDisc s r2 rho).p.n = s.numNodes from problem_n s] at h
  rw [h, totalWork_eq, overFaces_zero, add_zero]
  · unfold overCells
    rw [show (filterDisc s r2 rho).cellsIn = (List.range s.cells.length).map fun c =>
      (List.range s.shapeVals.length).map fun q => filterPoint s r2 rho c q from rfl]
    rw [sum_zipIdx_range (f := fun (pts : List (QPoint K)) (c : ℕ) => (pts.map (fun q => Spec.volumeWork (fields (filterDisc s r2 rho).p.vars)
      (cellNodes (filterDisc s r2 rho).p c) s.dim (formOf (some helmholtzMass) (some helmholtzTensor)) u w q)).sum)]
    unfold Spec.l2 Spec.dirichlet Spec.integral
    rw [Finset.mul_sum, ← Finset.sum_add_distrib, ← Finset.sum_sub_distrib]
    apply Finset.sum_congr rfl
    intro c hc
    have hc' : c < s.cells.length := by simpa using hc
    rw [Finset.mul_sum, ← Finset.sum_add_distrib, ← Finset.sum_sub_distrib, List.map_map,
      ← List.sum_toFinset _ List.nodup_range, List.toFinset_range]
    apply Finset.sum_congr rfl
    intro q hq
    simp only [Function.comp_apply]
    rw [show (filterDisc s r2 rho).p = s.problem from rfl]
    have hlen : (fields s.problem.vars).length = 1 := rfl
    have hvec : ((fields s.problem.vars).getD 0 ⟨0, 0⟩).vec = 1 := rfl
    unfold Spec.volumeWork
    simp only [hlen, Finset.sum_range_one, hvec, formOf, Spec.valuesAt, Spec.gradsAt, List.range_one, List.map_cons,
      List.map_nil, List.getD_cons_zero, helmholtzMass, helmholtzTensor]
    rw [show (Spec.fe (filterPoint s r2 rho c q) 0).vals = s.shapeVals.getD q [] from rfl,
      show (Spec.fe (filterPoint s r2 rho c q) 0).grads = s.grads c q from rfl,
      show (Spec.fe (filterPoint s r2 rho c q) 0).jxw = s.jxw c q from rfl,
      show (filterPoint s r2 rho c q).iv = [Spec.fieldAt s rho c q, r2] from rfl]
    simp only [scalar_value s hs _ c q hc', scalar_grad s hs _ c q _ hc', List.getD_cons_zero, List.getD_cons_succ]
    have : ∑ k ∈ Finset.range s.dim, (((List.range s.dim).map fun k => Spec.slopeAt s u c q k).map (r2 * ·)).getD k 0
        * Spec.slopeAt s w c q k = r2 * ∑ k ∈ Finset.range s.dim, Spec.slopeAt s u c q k * Spec.slopeAt s w c q k := by
      rw [Finset.mul_sum]
      apply Finset.sum_congr rfl
      intro k hk
      have hk' : k < s.dim := by simpa using hk
      rw [List.getD_eq_getElem _ _ (by simpa using hk')]
      simp only [List.getElem_map, List.getElem_range]
      ring
    rw [this]
    ring
  · intro k nodes q
    unfold Spec.surfaceWork
    simp

/-- The empty boundary condition of the filter. -/
def noBc (s : FilterMesh K) : DirichletBC K := ⟨[], List.replicate s.numNodes false, [], s.numNodes⟩

theorem createBC_none (s : FilterMesh K) : createBC (Pt := Unit) s.problem.vars [] [] = .ok (noBc s) := by
  simp [createBC, noBc, FilterMesh.problem, numDofs, Var.numDofs]

theorem noBc_canonical (s : FilterMesh K) : CanonicalBC s.numNodes (noBc s) :=
  ⟨by simp [noBc], by simp [noBc], by simp [noBc], by intro d hd; simp [noBc, List.getD_eq_getElem?_getD, hd], rfl, rfl⟩

/-- The linear solver given to the filter is exact for the system of this density. -/
def ExactSolver (s : FilterMesh K) (radius : K) (backend : Backend K) (direct symmetric : Bool) (rho : List K) : Prop :=
  ∀ d, helmholtzDisc s (radius ^ 2) rho = .ok d → ∀ b x0,
    Spec.Solves .full s.numNodes (d.forwardOp (noBc s) direct symmetric (List.replicate s.numNodes 0)) b
      (backend (d.forwardOp (noBc s) direct symmetric (List.replicate s.numNodes 0)) b x0)

/-- The same for the system reduced by a prolongation matrix. -/
def ExactReducedSolver (s : FilterMesh K) (radius : K) (P : Coo K) (backend : Backend K) (rho : List K) : Prop :=
  ∀ d, helmholtzDisc s (radius ^ 2) rho = .ok d → ∀ b x0,
    Spec.Solves .full P.cols (.fn (reducedOp d P (noBc s) (List.replicate s.numNodes 0))) b
      (backend (.fn (reducedOp d P (noBc s) (List.replicate s.numNodes 0))) b x0)

/-- **C96** (what the filter returns). On a consistent mesh whose numbers of nodes and of cells differ, for every radius and
every nodal density, and with a linear solver that is exact for the system it is given, the filter returns the weak solution
of `ũ - r² ∇²ũ = u` with natural boundary conditions, among all nodal fields. -/
theorem C96_filter_solves_partial (s : FilterMesh K) (hs : Spec.FilterMeshOk s) (hne : s.numNodes ≠ s.cells.length)
    (radius : K) (backend : Backend K) (direct symmetric : Bool) (rho : List K) (hx : rho.length = s.numNodes)
    (hb : ExactSolver s radius backend direct symmetric rho) :
    ∃ out, helmholtzFilter s radius none backend direct symmetric rho = .ok out ∧
      Spec.Filtered s (Spec.AllFields s) (radius ^ 2) rho out := by
  have hd := helmholtzDisc_eq s hs hne (radius ^ 2) rho hx
  have hn : (filterDisc s (radius ^ 2) rho).p.n = s.numNodes := problem_n s
  have h16 := C16_linear_solve_correct (filterDisc_ok s hs (radius ^ 2) rho) (filterDisc_linear s (radius ^ 2) rho)
    (filterDisc_shapes s (radius ^ 2) rho) (noBc s) (by rw [hn]; exact noBc_canonical s)
    (fun sol r hr => by simp [noBc] at hr) backend direct symmetric (List.replicate s.numNodes 0) (by simp [hn])
    (fun _ k hk => by simp [noBc] at hk) (fun _ => Or.inl rfl) (by rw [hn]; exact hb _ hd)
  refine ⟨linearStep (filterDisc s (radius ^ 2) rho) backend direct symmetric (noBc s) (List.replicate s.numNodes 0), ?_, ?_⟩
  · unfold helmholtzFilter
    simp only [hd, createBC_none, bind, Except.bind, pure, Except.pure, linearSolver, Option.getD, problem_n]
  · refine ⟨h16.1.trans hn, fun v hv => ?_⟩
    have hw := filter_work s hs (radius ^ 2) rho
      (linearStep (filterDisc s (radius ^ 2) rho) backend direct symmetric (noBc s) (List.replicate s.numNodes 0)) v
    have h0 : Spec.inner s.numNodes ((filterDisc s (radius ^ 2) rho).residualAt
      (linearStep (filterDisc s (radius ^ 2) rho) backend direct symmetric (noBc s) (List.replicate s.numNodes 0))) v = 0 := by
      unfold Spec.inner
      apply Finset.sum_eq_zero
      intro i hi
      rw [h16.2.2 i (by rw [hn]; simpa using hi) (by simp [noBc]), zero_mul]
    rw [h0] at hw
    linear_combination -hw

set_option maxHeartbeats 1000000 in
/-- **C96** (periodic filter). With the prolongation matrix that `prolongation_matrix` builds from pairings without chains,
the filter returns the weak solution among the fields that take equal values at the paired nodes. -/
theorem C96_periodic_filter_solves_partial {Pt : Type} (s : FilterMesh K) (hs : Spec.FilterMeshOk s)
    (hne : s.numNodes ≠ s.cells.length) (near : Pt → Pt → Bool) (points : List Pt) (pairings : List (PeriodicPairing Pt))
    (P : Coo K) (hP : prolongationMatrix near points 1 pairings = .ok P)
    (hchain : ∀ i j k, Spec.PairedDofs near points 1 pairings i j → ¬ Spec.PairedDofs near points 1 pairings k i)
    (hpts : points.length = s.numNodes) (radius : K) (backend : Backend K) (direct symmetric : Bool) (rho : List K)
    (hx : rho.length = s.numNodes) (hb : ExactReducedSolver s radius P backend rho) :
    ∃ out, helmholtzFilter s radius (some P) backend direct symmetric rho = .ok out ∧
      Spec.Filtered s (Spec.TiedFields s (Spec.PairedDofs near points 1 pairings)) (radius ^ 2) rho out := by
  have hd := helmholtzDisc_eq s hs hne (radius ^ 2) rho hx
  have hn : (filterDisc s (radius ^ 2) rho).p.n = s.numNodes := problem_n s
  have hN : points.length * 1 = (filterDisc s (radius ^ 2) rho).p.n := by rw [hn, mul_one, hpts]
  obtain ⟨B, hnd, hBmem, hBlt, hAlt, col, hcop, hfree, hcol, hpair⟩ :=
    prolongation_copies near points 1 pairings P hP hchain
  have hu : reducedSolver (filterDisc s (radius ^ 2) rho) backend P (noBc s) (some (List.replicate s.numNodes 0)) none
      = .ok (reducedSolve (filterDisc s (radius ^ 2) rho) backend P (noBc s) (List.replicate s.numNodes 0)) := by
    simp [reducedSolver, badBcRows, noBc]
  refine ⟨reducedSolve (filterDisc s (radius ^ 2) rho) backend P (noBc s) (List.replicate s.numNodes 0), ?_, ?_⟩
  · unfold helmholtzFilter
    simp only [hd, createBC_none, bind, Except.bind, problem_n]
    exact hu
  · have hlen : (reducedSolve (filterDisc s (radius ^ 2) rho) backend P (noBc s) (List.replicate s.numNodes 0)).length
        = s.numNodes := by
      simp [reducedSolve, vadd, hcop.matvec_length, hpts]
    have heq := fun w hw h1 => C21_constrained_equilibrium_partial near points 1 pairings P hP hchain
      (filterDisc_ok s hs (radius ^ 2) rho)
      (filterDisc_linear s (radius ^ 2) rho) (filterDisc_shapes s (radius ^ 2) rho) hN backend (noBc s)
      (by rw [hn]; exact noBc_canonical s) (List.replicate s.numNodes 0) (by simp [hn]) (fun k hk => by simp [noBc] at hk) _ hu
      (hb _ hd _ _) w hw h1 (by simp [noBc])
    refine ⟨⟨hlen, fun i j hij => ?_⟩, fun v hv => ?_⟩
    · have h22 := (C22_prolongation_partial near points 1 pairings P hP hchain).2.2.2.1
      have := C21_stays_in_constrained_space (filterDisc s (radius ^ 2) rho) backend P (noBc s)
        (List.replicate s.numNodes 0) none _ hu (by simp [hcop.rows, hpts]) j 1 (fun _ => 1) (fun _ => i)
        (fun w => by simp only [Finset.sum_range_one, one_mul]; exact h22 w i j hij)
        (by simp [List.getD_eq_getElem?_getD, List.getElem?_replicate]; split_ifs <;> rfl)
      simpa using this
    · have hw := filter_work s hs (radius ^ 2) rho
        (reducedSolve (filterDisc s (radius ^ 2) rho) backend P (noBc s) (List.replicate s.numNodes 0)) v
      have h0 := (heq v (by rw [hn]; exact hv.1) hv.2).2
      have h0' : Spec.inner s.numNodes ((filterDisc s (radius ^ 2) rho).residualAt
          (reducedSolve (filterDisc s (radius ^ 2) rho) backend P (noBc s) (List.replicate s.numNodes 0))) v = 0 := by
        refine Eq.trans ?_ h0
        unfold Spec.inner
        rw [hn]
        exact Finset.sum_congr rfl fun i _ => mul_comm _ _
      rw [h0'] at hw
      linear_combination -hw

/-! ### Consequences -/

theorem combine_getD (u w : List K) (h : u.length = w.length) (t : K) (j : ℕ) :
    (List.zipWith (fun a b => a + t * b) u w).getD j 0 = u.getD j 0 + t * w.getD j 0 := by
  rcases lt_or_ge j u.length with hj | hj
  · rw [List.getD_eq_getElem _ _ (by simp; omega), List.getD_eq_getElem _ _ hj, List.getD_eq_getElem _ _ (by omega)]
    simp
  · rw [List.getD_eq_default _ _ (by simp; omega), List.getD_eq_default _ _ hj, List.getD_eq_default _ _ (by omega)]
    simp

theorem fieldAt_combine (s : FilterMesh K) (u w : List K) (h : u.length = w.length) (t : K) (c q : ℕ) :
    Spec.fieldAt s (List.zipWith (fun a b => a + t * b) u w) c q = Spec.fieldAt s u c q + t * Spec.fieldAt s w c q := by
  unfold Spec.fieldAt
  rw [Finset.mul_sum, ← Finset.sum_add_distrib]
  refine Finset.sum_congr rfl fun a _ => ?_
  rw [combine_getD u w h]; ring

theorem slopeAt_combine (s : FilterMesh K) (u w : List K) (h : u.length = w.length) (t : K) (c q k : ℕ) :
    Spec.slopeAt s (List.zipWith (fun a b => a + t * b) u w) c q k = Spec.slopeAt s u c q k + t * Spec.slopeAt s w c q k := by
  unfold Spec.slopeAt
  rw [Finset.mul_sum, ← Finset.sum_add_distrib]
  refine Finset.sum_congr rfl fun a _ => ?_
  rw [combine_getD u w h]; ring

theorem integral_combine (s : FilterMesh K) (f g h : ℕ → ℕ → K) (t : K) (e : ∀ c q, f c q = g c q + t * h c q) :
    Spec.integral s f = Spec.integral s g + t * Spec.integral s h := by
  unfold Spec.integral
  rw [Finset.mul_sum, ← Finset.sum_add_distrib]
  refine Finset.sum_congr rfl fun c _ => ?_
  rw [Finset.mul_sum, ← Finset.sum_add_distrib]
  refine Finset.sum_congr rfl fun q _ => ?_
  rw [e]; ring

theorem l2_combine (s : FilterMesh K) (u w v : List K) (h : u.length = w.length) (t : K) :
    Spec.l2 s (List.zipWith (fun a b => a + t * b) u w) v = Spec.l2 s u v + t * Spec.l2 s w v :=
  integral_combine s _ _ _ t fun c q => by rw [fieldAt_combine s u w h]; ring

theorem dirichlet_combine (s : FilterMesh K) (u w v : List K) (h : u.length = w.length) (t : K) :
    Spec.dirichlet s (List.zipWith (fun a b => a + t * b) u w) v = Spec.dirichlet s u v + t * Spec.dirichlet s w v :=
  integral_combine s _ _ _ t fun c q => by
    rw [Finset.mul_sum, ← Finset.sum_add_distrib]
    refine Finset.sum_congr rfl fun k _ => ?_
    rw [slopeAt_combine s u w h]; ring

theorem l2_symm (s : FilterMesh K) (u v : List K) : Spec.l2 s u v = Spec.l2 s v u := by
  simp only [Spec.l2, mul_comm]

theorem dirichlet_symm (s : FilterMesh K) (u v : List K) : Spec.dirichlet s u v = Spec.dirichlet s v u := by
  simp only [Spec.dirichlet, mul_comm]

theorem integral_nonneg (s : FilterMesh K) (hs : Spec.FilterMeshOk s) (f : ℕ → ℕ → K) (hf : ∀ c q, 0 ≤ f c q) :
    0 ≤ Spec.integral s f :=
  Finset.sum_nonneg fun c hc => Finset.sum_nonneg fun q hq =>
    mul_nonneg (hf c q) (hs.weights c (by simpa using hc) q (by simpa using hq))

theorem l2_self_nonneg (s : FilterMesh K) (hs : Spec.FilterMeshOk s) (u : List K) : 0 ≤ Spec.l2 s u u :=
  integral_nonneg s hs _ fun _ _ => mul_self_nonneg _

theorem dirichlet_self_nonneg (s : FilterMesh K) (hs : Spec.FilterMeshOk s) (u : List K) : 0 ≤ Spec.dirichlet s u u :=
  integral_nonneg s hs _ fun _ _ => Finset.sum_nonneg fun _ _ => mul_self_nonneg _

theorem allFields_space (s : FilterMesh K) : Spec.FieldSpace s (Spec.AllFields s) :=
  ⟨fun _ h => h, fun u w hu hw t => by simp only [Spec.AllFields] at *; simp [hu, hw]⟩

theorem tiedFields_space (s : FilterMesh K) (tied : ℕ → ℕ → Prop) : Spec.FieldSpace s (Spec.TiedFields s tied) :=
  ⟨fun _ h => h.1, fun u w hu hw t => ⟨by simp [hu.1, hw.1], fun i j hij => by
    have hl : u.length = w.length := hu.1.trans hw.1.symm
    rw [combine_getD u w hl, combine_getD u w hl, hu.2 i j hij, hw.2 i j hij]⟩⟩

/-- **C96** (one answer). If the filter equation sees every field of the space, the filtered field is unique: the result
depends neither on the solver nor on its options. -/
theorem C96_unique (s : FilterMesh K) (V : List K → Prop) (hV : Spec.FieldSpace s V) (r2 : K) (hvis : Spec.Visible s V r2)
    (u a b : List K) (ha : Spec.Filtered s V r2 u a) (hb : Spec.Filtered s V r2 u b) : a = b := by
  have hl : a.length = b.length := (hV.length a ha.mem).trans (hV.length b hb.mem).symm
  have hdV := hV.combine a b ha.mem hb.mem (-1)
  have e1 := ha.eq _ hdV
  have e2 := hb.eq _ hdV
  have h0 := hvis _ hdV (by
    rw [l2_combine s a b _ hl, dirichlet_combine s a b _ hl]
    linear_combination e1 - e2)
  apply List.ext_getElem hl
  intro i h1 h2
  have := h0 i (by rw [← hV.length a ha.mem]; exact h1)
  rw [combine_getD a b hl, List.getD_eq_getElem _ _ h1, List.getD_eq_getElem _ _ h2] at this
  linear_combination this

/-- **C96** (the filter is linear). -/
theorem C96_linear (s : FilterMesh K) (V : List K → Prop) (hV : Spec.FieldSpace s V) (r2 t : K) (u w a b : List K)
    (hl : u.length = w.length) (ha : Spec.Filtered s V r2 u a) (hb : Spec.Filtered s V r2 w b) :
    Spec.Filtered s V r2 (List.zipWith (fun x y => x + t * y) u w) (List.zipWith (fun x y => x + t * y) a b) := by
  have hab : a.length = b.length := (hV.length a ha.mem).trans (hV.length b hb.mem).symm
  refine ⟨hV.combine a b ha.mem hb.mem t, fun v hv => ?_⟩
  rw [l2_combine s a b _ hab, dirichlet_combine s a b _ hab, l2_combine s u w _ hl]
  linear_combination ha.eq v hv + t * hb.eq v hv

theorem slopeAt_const (s : FilterMesh K) (hs : Spec.FilterMeshOk s) (x : K) (c q k : ℕ) (hc : c < s.cells.length)
    (hq : q < s.shapeVals.length) (hk : k < s.dim) : Spec.slopeAt s (List.replicate s.numNodes x) c q k = 0 := by
  unfold Spec.slopeAt
  have hcm : s.cells.getD c [] ∈ s.cells := by rw [List.getD_eq_getElem _ _ hc]; exact List.getElem_mem _
  obtain ⟨h1, h2⟩ := hs.cells _ hcm
  have h3 := (hs.grads c hc q hq).2 k hk
  refine Eq.trans ?_ ((congrArg (x * ·) h3).trans (mul_zero x))
  show _ = x * _
  rw [Finset.mul_sum]
  refine Finset.sum_congr rfl fun a ha => ?_
  have hlt : (s.cells.getD c []).getD a 0 < s.numNodes := by
    apply h2
    rw [List.getD_eq_getElem (s.cells.getD c []) 0 (by rw [h1]; simpa using ha)]
    exact List.getElem_mem _
  congr 1
  rw [List.getD_eq_getElem (List.replicate s.numNodes x) _ (by simpa using hlt)]
  simp

theorem dirichlet_const (s : FilterMesh K) (hs : Spec.FilterMeshOk s) (x : K) (v : List K) :
    Spec.dirichlet s (List.replicate s.numNodes x) v = 0 := by
  unfold Spec.dirichlet Spec.integral
  apply Finset.sum_eq_zero
  intro c hc
  apply Finset.sum_eq_zero
  intro q hq
  refine mul_eq_zero_of_left (Finset.sum_eq_zero ?_) _
  intro k hk
  rw [slopeAt_const s hs x c q k (by simpa using hc) (by simpa using hq) (by simpa using hk), zero_mul]

/-- **C96** (constants). A uniform density is left unchanged, for every radius. -/
theorem C96_constants_kept (s : FilterMesh K) (hs : Spec.FilterMeshOk s) (V : List K → Prop) (r2 x : K)
    (hx : V (List.replicate s.numNodes x)) :
    Spec.Filtered s V r2 (List.replicate s.numNodes x) (List.replicate s.numNodes x) :=
  ⟨hx, fun v _ => by rw [dirichlet_const s hs, mul_zero, add_zero]⟩

/-- **C96** (volume). The filter keeps the integral of the density, for every radius and density. -/
theorem C96_volume_kept (s : FilterMesh K) (hs : Spec.FilterMeshOk s) (V : List K → Prop) (r2 : K)
    (hone : V (List.replicate s.numNodes 1)) (u a : List K) (ha : Spec.Filtered s V r2 u a) :
    Spec.integral s (Spec.fieldAt s a) = Spec.integral s (Spec.fieldAt s u) := by
  have h := ha.eq _ hone
  rw [dirichlet_symm, dirichlet_const s hs, mul_zero, add_zero] at h
  have key : ∀ w : List K, Spec.l2 s w (List.replicate s.numNodes 1) = Spec.integral s (Spec.fieldAt s w) := by
    intro w
    unfold Spec.l2 Spec.integral
    refine Finset.sum_congr rfl fun c hc => Finset.sum_congr rfl fun q hq => ?_
    show _ * Spec.fieldAt s (List.replicate s.numNodes 1) c q * _ = _
    rw [fieldAt_const s hs 1 c q (by simpa using hc) (by simpa using hq), mul_one]
  rw [key, key] at h
  exact h

/-- **C96** (self-adjoint). Filtering one field and testing with another is symmetric, which is what makes the backward pass
of the filter a filter. -/
theorem C96_self_adjoint (s : FilterMesh K) (V : List K → Prop) (r2 : K) (u w a b : List K)
    (ha : Spec.Filtered s V r2 u a) (hb : Spec.Filtered s V r2 w b) : Spec.l2 s u b = Spec.l2 s w a := by
  have h1 := ha.eq _ hb.mem
  have h2 := hb.eq _ ha.mem
  rw [← h1, ← h2, l2_symm s a b, dirichlet_symm s a b]

/-- **C96** (the filter damps). It does not increase `∫ u²`, and the slopes of the result are bounded:
`4 r² ∫ |∇ũ|² ≤ ∫ u²`. -/
theorem C96_damps (s : FilterMesh K) (hs : Spec.FilterMeshOk s) (V : List K → Prop) (hV : Spec.FieldSpace s V) (r : K)
    (u a : List K) (hu : u.length = s.numNodes) (ha : Spec.Filtered s V (r ^ 2) u a) :
    Spec.l2 s a a ≤ Spec.l2 s u u ∧ 4 * r ^ 2 * Spec.dirichlet s a a ≤ Spec.l2 s u u := by
  have hl : u.length = a.length := hu.trans (hV.length a ha.mem).symm
  have h1 := ha.eq _ ha.mem
  have hD := mul_nonneg (sq_nonneg r) (dirichlet_self_nonneg s hs a)
  have hA := l2_self_nonneg s hs a
  have q1 := l2_self_nonneg s hs (List.zipWith (fun x y => x + (-1) * y) u a)
  have q2 := l2_self_nonneg s hs (List.zipWith (fun x y => x + (-2) * y) u a)
  rw [l2_combine s u a _ hl, l2_symm s u, l2_symm s a, l2_combine s u a _ hl, l2_combine s u a _ hl, l2_symm s a u] at q1 q2
  constructor <;> nlinarith

/-- **C96** (the filter smooths). It does not increase `∫ |∇u|²`. -/
theorem C96_smooths (s : FilterMesh K) (hs : Spec.FilterMeshOk s) (V : List K → Prop) (hV : Spec.FieldSpace s V) (r : K)
    (hr : r ≠ 0) (u a : List K) (hu : V u) (ha : Spec.Filtered s V (r ^ 2) u a) :
    Spec.dirichlet s a a ≤ Spec.dirichlet s u u := by
  have hl : u.length = a.length := (hV.length u hu).trans (hV.length a ha.mem).symm
  have hdV := hV.combine u a hu ha.mem (-1)
  have h1 := ha.eq _ hdV
  have q1 := l2_self_nonneg s hs (List.zipWith (fun x y => x + (-1) * y) u a)
  have q2 := dirichlet_self_nonneg s hs (List.zipWith (fun x y => x + (-1) * y) u a)
  rw [l2_symm s a, l2_symm s u, dirichlet_symm s a, l2_combine s u a _ hl, l2_combine s u a _ hl,
    dirichlet_combine s u a _ hl] at h1
  rw [l2_combine s u a _ hl, l2_symm s u, l2_symm s a, l2_combine s u a _ hl, l2_combine s u a _ hl] at q1
  rw [dirichlet_combine s u a _ hl, dirichlet_symm s u, dirichlet_symm s a, dirichlet_combine s u a _ hl,
    dirichlet_combine s u a _ hl, dirichlet_symm s a u] at q2
  rw [l2_symm s a u] at h1 q1
  have hpos : 0 < r ^ 2 := by positivity
  have h3 : 0 ≤ r ^ 2 * (Spec.dirichlet s u a - Spec.dirichlet s a a) := by linarith
  have h4 : 0 ≤ Spec.dirichlet s u a - Spec.dirichlet s a a := nonneg_of_mul_nonneg_right h3 hpos
  linarith

/-- **C96** (when the filter is well posed). A positive radius, positive weights, cells on which only constants have zero
slope, and a mesh in one piece: then the filter equation sees every field. -/
theorem C96_connected_visible (s : FilterMesh K) (hs : Spec.FilterMeshOk s) (r : K) (hr : r ≠ 0)
    (hq : s.shapeVals ≠ []) (hpos : ∀ c < s.cells.length, ∀ q < s.shapeVals.length, 0 < s.jxw c q)
    (hslope : ∀ u : List K, u.length = s.numNodes → ∀ c < s.cells.length,
      (∀ q < s.shapeVals.length, ∀ k < s.dim, Spec.slopeAt s u c q k = 0) →
      ∀ i ∈ s.cells.getD c [], ∀ j ∈ s.cells.getD c [], u.getD i 0 = u.getD j 0)
    (hconn : ∀ i < s.numNodes, ∀ j < s.numNodes, Relation.ReflTransGen (Spec.ShareCell s) i j)
    (hcells : s.cells ≠ []) (V : List K → Prop) (hV : Spec.FieldSpace s V) : Spec.Visible s V (r ^ 2) := by
  intro u hu h0 i hi
  have hlen := hV.length u hu
  have hD := dirichlet_self_nonneg s hs u
  have hL := l2_self_nonneg s hs u
  have hr2 : 0 < r ^ 2 := by positivity
  have hD0 : Spec.dirichlet s u u = 0 := by
    have : r ^ 2 * Spec.dirichlet s u u ≤ 0 := by linarith
    rcases hD.lt_or_eq with h | h
    · exact absurd this (not_le.mpr (mul_pos hr2 h))
    · exact h.symm
  have hL0 : Spec.l2 s u u = 0 := by rw [hD0] at h0; linarith
  have zero_of : ∀ f : ℕ → ℕ → K, (∀ c q, 0 ≤ f c q) → Spec.integral s f = 0 →
      ∀ c < s.cells.length, ∀ q < s.shapeVals.length, f c q = 0 := by
    intro f hf hf0 c hc q hq'
    unfold Spec.integral at hf0
    rw [Finset.sum_eq_zero_iff_of_nonneg (fun c hc => Finset.sum_nonneg fun q hq =>
      mul_nonneg (hf c q) (hs.weights c (by simpa using hc) q (by simpa using hq)))] at hf0
    have h1 := hf0 c (by simpa using hc)
    rw [Finset.sum_eq_zero_iff_of_nonneg (fun q hq =>
      mul_nonneg (hf c q) (hs.weights c hc q (by simpa using hq)))] at h1
    have h2 := h1 q (by simpa using hq')
    exact (mul_eq_zero.mp h2).resolve_right (hpos c hc q hq').ne'
  have hshare : ∀ i j, Spec.ShareCell s i j → u.getD i 0 = u.getD j 0 := by
    rintro i j ⟨cl, hcl, hic, hjc⟩
    obtain ⟨c, hc, rfl⟩ := List.mem_iff_getElem.mp hcl
    have e : s.cells.getD c [] = s.cells[c] := List.getD_eq_getElem _ _ hc
    refine hslope u hlen c hc (fun q hq' k hk => ?_) i (by rw [e]; exact hic) j (by rw [e]; exact hjc)
    have hz := zero_of _ (fun c q => Finset.sum_nonneg fun k _ => mul_self_nonneg (Spec.slopeAt s u c q k)) hD0 c hc q hq'
    rw [Finset.sum_eq_zero_iff_of_nonneg (fun k _ => mul_self_nonneg _)] at hz
    exact mul_self_eq_zero.mp (hz k (by simpa using hk))
  have hall : ∀ j < s.numNodes, u.getD j 0 = u.getD i 0 := by
    intro j hj
    have := hconn i hi j hj
    induction this with
    | refl => rfl
    | tail h1 h2 ih =>
      rename_i b c
      have hb : b < s.numNodes := by
        obtain ⟨cl, hcl, hbc, -⟩ := h2
        exact (hs.cells cl hcl).2 b hbc
      rw [← hshare _ _ h2, ih hb]
  have hconst : u = List.replicate s.numNodes (u.getD i 0) := by
    apply List.ext_getElem (by simpa using hlen)
    intro j h1 h2
    have := hall j (by rw [← hlen]; exact h1)
    rw [List.getD_eq_getElem _ _ h1] at this
    rw [this]; simp
  have hc0 : 0 < s.cells.length := List.length_pos_iff.mpr hcells
  have hq0 : 0 < s.shapeVals.length := List.length_pos_iff.mpr hq
  have := zero_of _ (fun c q => mul_self_nonneg (Spec.fieldAt s u c q)) hL0 0 hc0 0 hq0
  have h2 := mul_self_eq_zero.mp this
  rw [hconst, fieldAt_const s hs _ 0 0 hc0 hq0] at h2
  exact h2


/-! ### Solvability -/

theorem exists_solution (n : ℕ) (A : ℕ → ℕ → K) (hinj : ∀ x : List K, x.length = n →
      (∀ i < n, ∑ j ∈ Finset.range n, A i j * x.getD j 0 = 0) → ∀ i < n, x.getD i 0 = 0) (b : List K) :
    ∃ x : List K, x.length = n ∧ ∀ i < n, ∑ j ∈ Finset.range n, A i j * x.getD j 0 = b.getD i 0 := by
  let M : Matrix (Fin n) (Fin n) K := fun i j => A i j
  have hsum : ∀ (y : Fin n → K) (i : Fin n), M.mulVec y i = ∑ j ∈ Finset.range n, A i j * (List.ofFn y).getD j 0 := by
    intro y i
    rw [Finset.sum_range]
    unfold Matrix.mulVec dotProduct
    refine Finset.sum_congr rfl fun j _ => ?_
    rw [List.getD_eq_getElem _ _ (by simp)]
    simp [M]
  have hi : Function.Injective M.mulVec := by
    intro y z hyz
    have h0 : M.mulVec (y - z) = 0 := by rw [Matrix.mulVec_sub, hyz, sub_self]
    have := hinj (List.ofFn (y - z)) (by simp) (fun i hi => by rw [← hsum (y - z) ⟨i, hi⟩, h0]; rfl)
    funext i
    have h := this i i.2
    rw [List.getD_eq_getElem _ _ (by simp)] at h
    simp at h
    linear_combination h
  have hsurj : Function.Surjective M.mulVec := Matrix.mulVec_surjective_iff_isUnit.mpr (Matrix.mulVec_injective_iff_isUnit.mp hi)
  obtain ⟨y, hy⟩ := hsurj (fun i => b.getD i 0)
  exact ⟨List.ofFn y, by simp, fun i hi => by rw [← hsum y ⟨i, hi⟩, hy]⟩

theorem l2_zero (s : FilterMesh K) (n : ℕ) (v : List K) : Spec.l2 s (List.replicate n 0) v = 0 := by
  unfold Spec.l2 Spec.integral
  refine Finset.sum_eq_zero fun c _ => Finset.sum_eq_zero fun q _ => ?_
  have : Spec.fieldAt s (List.replicate n 0) c q = 0 := by
    unfold Spec.fieldAt
    refine Finset.sum_eq_zero fun a _ => ?_
    simp only [List.getD_eq_getElem?_getD, List.getElem?_replicate]
    split_ifs <;> simp
  show Spec.fieldAt s (List.replicate n 0) c q * _ * _ = 0
  rw [this]; ring

theorem dirichlet_zero (s : FilterMesh K) (n : ℕ) (v : List K) : Spec.dirichlet s (List.replicate n 0) v = 0 := by
  unfold Spec.dirichlet Spec.integral
  refine Finset.sum_eq_zero fun c _ => Finset.sum_eq_zero fun q _ => ?_
  refine mul_eq_zero_of_left (Finset.sum_eq_zero fun k _ => ?_) _
  have : Spec.slopeAt s (List.replicate n 0) c q k = 0 := by
    unfold Spec.slopeAt
    refine Finset.sum_eq_zero fun a _ => ?_
    simp only [List.getD_eq_getElem?_getD, List.getElem?_replicate]
    split_ifs <;> simp
  rw [this]; ring

/-- The matrix of the filter is the matrix of the energy. -/
theorem tangent_form (s : FilterMesh K) (hs : Spec.FilterMeshOk s) (r2 : K) (rho sol u w : List K) :
    ∑ i ∈ Finset.range s.numNodes, w.getD i 0 *
        ∑ j ∈ Finset.range s.numNodes, tangentAt (filterDisc s r2 rho) sol i j * u.getD j 0
      = Spec.l2 s u w + r2 * Spec.dirichlet s u w := by
  have hn : (filterDisc s r2 rho).p.n = s.numNodes := problem_n s
  have h1 := filter_work s hs r2 rho u w
  have h0 := filter_work s hs r2 rho (List.replicate s.numNodes 0) w
  rw [l2_zero, dirichlet_zero] at h0
  have ha := residual_affine (filterDisc_ok s hs r2 rho) (filterDisc_linear s r2 rho) (filterDisc_shapes s r2 rho)
  rw [hn] at ha
  have hz : ∀ j, (List.replicate s.numNodes (0 : K)).getD j 0 = 0 := by
    intro j
    simp only [List.getD_eq_getElem?_getD, List.getElem?_replicate]
    split_ifs <;> simp
  have : Spec.l2 s u w + r2 * Spec.dirichlet s u w
      = Spec.inner s.numNodes ((filterDisc s r2 rho).residualAt u) w
        - Spec.inner s.numNodes ((filterDisc s r2 rho).residualAt (List.replicate s.numNodes 0)) w := by
    rw [h1, h0]; ring
  rw [this]
  unfold Spec.inner
  rw [← Finset.sum_sub_distrib]
  refine Finset.sum_congr rfl fun i hi => ?_
  rw [(ha u).2 i (by simpa using hi), (ha (List.replicate s.numNodes 0)).2 i (by simpa using hi)]
  simp only [hz, mul_zero, Finset.sum_const_zero, (ha sol).1]
  ring

/-- **C96** (solvable). Where the filter equation sees every field, an exact linear solver for the filter exists, for the
matrix-free and for the assembled system: the system handed to the solver always has a solution. -/
theorem C96_solvable (s : FilterMesh K) (hs : Spec.FilterMeshOk s) (hne : s.numNodes ≠ s.cells.length) (radius : K)
    (hvis : Spec.Visible s (Spec.AllFields s) (radius ^ 2)) (direct symmetric : Bool) (rho : List K)
    (hx : rho.length = s.numNodes) : ∃ backend, ExactSolver s radius backend direct symmetric rho := by
  have hn : (filterDisc s (radius ^ 2) rho).p.n = s.numNodes := problem_n s
  have hd := helmholtzDisc_eq s hs hne (radius ^ 2) rho hx
  have hsol := exists_solution s.numNodes (tangentAt (filterDisc s (radius ^ 2) rho) (List.replicate s.numNodes 0))
    (fun x hxl hx0 => hvis x hxl (by
      rw [← tangent_form s hs (radius ^ 2) rho (List.replicate s.numNodes 0) x x]
      refine Finset.sum_eq_zero fun i hi => ?_
      rw [hx0 i (by simpa using hi), mul_zero]))
  choose g hg1 hg2 using hsol
  refine ⟨fun _ b _ => g b, ?_⟩
  intro d hd' b x0
  obtain rfl : d = filterDisc s (radius ^ 2) rho := by rw [hd] at hd'; exact (Except.ok.inj hd').symm
  have hbc : CanonicalBC (filterDisc s (radius ^ 2) rho).p.n (noBc s) := by rw [hn]; exact noBc_canonical s
  unfold Discretization.forwardOp
  cases direct with
  | false =>
    refine ⟨hg1 b, fun i hi => ?_⟩
    rw [matfreeAt_getD (filterDisc_ok s hs (radius ^ 2) rho) (noBc s) hbc symmetric _ (g b) (by rw [hn, hg1]) i
      (by rw [hn]; exact hi), hn]
    simpa [noBc] using hg2 b i hi
  | true =>
    refine ⟨hg1 b, fun i hi => ?_⟩
    rw [← hg2 b i hi]
    refine Finset.sum_congr rfl fun j hj => ?_
    have := completed_jacBcAt (filterDisc_ok s hs (radius ^ 2) rho) (noBc s) hbc (fun sol r hr => by simp [noBc] at hr)
      symmetric (List.replicate s.numNodes 0) (Or.inl rfl) i j (by rw [hn]; exact hi) (by rw [hn]; simpa using hj)
    have hv : (filterDisc s (radius ^ 2) rho).p.view = .full := rfl
    rw [hv] at this
    rw [this]
    simp [elimEntry, noBc]

/-- **C96** (solvable, periodic). -/
theorem C96_periodic_solvable {Pt : Type} (s : FilterMesh K) (hs : Spec.FilterMeshOk s)
    (hne : s.numNodes ≠ s.cells.length) (near : Pt → Pt → Bool) (points : List Pt) (pairings : List (PeriodicPairing Pt))
    (P : Coo K) (hP : prolongationMatrix near points 1 pairings = .ok P)
    (hchain : ∀ i j k, Spec.PairedDofs near points 1 pairings i j → ¬ Spec.PairedDofs near points 1 pairings k i)
    (hpts : points.length = s.numNodes) (radius : K)
    (hvis : Spec.Visible s (Spec.TiedFields s (Spec.PairedDofs near points 1 pairings)) (radius ^ 2)) (rho : List K)
    (hx : rho.length = s.numNodes) : ∃ backend, ExactReducedSolver s radius P backend rho := by
  have hn : (filterDisc s (radius ^ 2) rho).p.n = s.numNodes := problem_n s
  have hd := helmholtzDisc_eq s hs hne (radius ^ 2) rho hx
  have h22 := C22_prolongation_partial near points 1 pairings P hP hchain
  obtain ⟨B, hnd, hBmem, hBlt, hAlt, col, hcop, hfree, hcol, hpair⟩ :=
    prolongation_copies near points 1 pairings P hP hchain
  rw [mul_one, hpts] at hcop h22
  set M := s.numNodes - B.length with hM
  have hcop' : Copies P (filterDisc s (radius ^ 2) rho).p.n P.cols col := by
    refine ⟨by rw [hcop.rows, hn], rfl, by rw [hcop.entries, hn], fun i hi => ?_⟩
    have := hcop.lt i (by rw [hn] at hi; exact hi)
    rw [hcop.cols]; exact this
  have hbc : CanonicalBC (filterDisc s (radius ^ 2) rho).p.n (noBc s) := by rw [hn]; exact noBc_canonical s
  let T := tangentAt (filterDisc s (radius ^ 2) rho) (List.replicate s.numNodes 0)
  let A : ℕ → ℕ → K := fun c e => ∑ i ∈ Finset.range s.numNodes, if col i = c then
    ∑ j ∈ Finset.range s.numNodes, if col j = e then T i j else 0 else 0
  have hop : ∀ (x : List K) (c : ℕ), c < P.cols →
      (reducedOp (filterDisc s (radius ^ 2) rho) P (noBc s) (List.replicate s.numNodes 0) x).getD c 0
        = ∑ e ∈ Finset.range P.cols, A c e * x.getD e 0 := by
    intro x c hc
    rw [class_sum (filterDisc_ok s hs (radius ^ 2) rho) hcop' (noBc s) hbc _ x c hc, hn]
    simp only [A, Finset.sum_mul]
    rw [Finset.sum_comm]
    refine Finset.sum_congr rfl fun i hi => ?_
    split_ifs with h1
    · simp [noBc] at *
    · simp only [Finset.sum_mul]
      rw [Finset.sum_comm]
      refine Finset.sum_congr rfl fun j hj => ?_
      rw [Finset.sum_eq_single (col j)]
      · simp [noBc, T]
      · intro e _ he
        rw [if_neg (fun h => he h.symm), zero_mul]
      · intro h
        exact absurd (Finset.mem_range.mpr (hcop'.lt j (by rw [hn]; simpa using hj))) h
    · simp
  have hsol := exists_solution P.cols A (fun x hxl hx0 => by
    have hmem : Spec.TiedFields s (Spec.PairedDofs near points 1 pairings) (P.matvec x) :=
      ⟨(hcop'.matvec_length x).trans hn, fun i j hij => h22.2.2.2.1 x i j hij⟩
    have hgt : ∀ i < s.numNodes, (P.matvec x).getD i 0 = x.getD (col i) 0 :=
      fun i hi => hcop'.matvec_getD x i (by rw [hn]; exact hi)
    have hz := hvis _ hmem (by
      rw [← tangent_form s hs (radius ^ 2) rho (List.replicate s.numNodes 0)]
      have e1 : ∑ c ∈ Finset.range P.cols, x.getD c 0 * ∑ e ∈ Finset.range P.cols, A c e * x.getD e 0 = 0 :=
        Finset.sum_eq_zero fun c hc => by rw [hx0 c (by simpa using hc), mul_zero]
      refine Eq.trans ?_ e1
      have e2 : ∀ c ∈ Finset.range P.cols, x.getD c 0 * ∑ e ∈ Finset.range P.cols, A c e * x.getD e 0
          = ∑ i ∈ Finset.range s.numNodes, if col i = c then x.getD c 0 * ∑ j ∈ Finset.range s.numNodes,
              T i j * (P.matvec x).getD j 0 else 0 := by
        intro c hc
        rw [← hop x c (by simpa using hc),
          class_sum (filterDisc_ok s hs (radius ^ 2) rho) hcop' (noBc s) hbc _ x c (by simpa using hc), hn, Finset.mul_sum]
        refine Finset.sum_congr rfl fun i hi => ?_
        split_ifs with h1 h2
        · simp [noBc] at h2
        · congr 1
          refine Finset.sum_congr rfl fun j hj => ?_
          rw [hgt j (by simpa using hj)]
          simp [noBc, T]
        · simp
      rw [Finset.sum_congr rfl e2, Finset.sum_comm]
      refine Finset.sum_congr rfl fun i hi => ?_
      rw [Finset.sum_ite_eq, if_pos (Finset.mem_range.mpr (hcop'.lt i (by rw [hn]; simpa using hi))), hgt i (by simpa using hi)])
    have huni := h22.2.2.2.2 (P.matvec x) ((hcop'.matvec_length x).trans hn) hmem.2
    have hzero : P.matvec (List.replicate P.cols 0) = P.matvec x := by
      apply List.ext_getElem (by rw [hcop'.matvec_length, hcop'.matvec_length])
      intro i h1 h2
      have hi : i < s.numNodes := by rw [hcop'.matvec_length, hn] at h2; exact h2
      have a1 := hcop'.matvec_getD (List.replicate P.cols 0) i (by rw [hn]; exact hi)
      rw [List.getD_eq_getElem _ _ h1] at a1
      have a2 := hz i hi
      rw [List.getD_eq_getElem _ _ h2] at a2
      rw [a1, a2]
      simp only [List.getD_eq_getElem?_getD, List.getElem?_replicate]
      split_ifs <;> simp
    have := huni.unique ⟨hxl, rfl⟩ ⟨by simp, hzero⟩
    intro i hi
    rw [this]
    simp [List.getD_eq_getElem?_getD, List.getElem?_replicate, hi])
  choose g hg1 hg2 using hsol
  refine ⟨fun _ b _ => g b, ?_⟩
  intro d hd' b x0
  obtain rfl : d = filterDisc s (radius ^ 2) rho := by rw [hd] at hd'; exact (Except.ok.inj hd').symm
  exact ⟨hg1 b, fun i hi => (hop (g b) i hi).trans (hg2 b i hi)⟩

/-- **C96 fails when there are as many nodes as cells**: whatever the density and the radius, the call fails. -/
theorem C96_equal_counts_violated (s : FilterMesh K) (hs : Spec.FilterMeshOk s) (heq : s.numNodes = s.cells.length)
    (hc : s.cells ≠ []) (hq : s.shapeVals ≠ []) (radius : K) (P : Option (Coo K)) (backend : Backend K)
    (direct symmetric : Bool) (rho : List K) (hx : rho.length = s.numNodes) :
    helmholtzFilter s radius P backend direct symmetric rho = .error .typeError := by
  have hc0 : 0 < s.cells.length := List.length_pos_iff.mpr hc
  have hq0 : 0 < s.shapeVals.length := List.length_pos_iff.mpr hq
  have h56 := C56_ambiguous_assembly s.varProblem (varProblem_ok s hs) (by simp [FilterMesh.varProblem]) 0
    (by simpa [FilterMesh.varProblem, VarProblem.fe] using heq) rho (by simpa [FilterMesh.varProblem, heq] using hx) 0 0
    (by simpa [FilterMesh.varProblem] using hq0)
  have hp : s.point (radius ^ 2) rho 0 0 = .error .typeError := by
    unfold FilterMesh.point
    simp only [h56, bind, Except.bind, asScalar]
  obtain ⟨a, ha⟩ : ∃ a, s.cells.length = a + 1 := ⟨_, (Nat.succ_pred_eq_of_pos hc0).symm⟩
  obtain ⟨b, hb⟩ : ∃ b, s.shapeVals.length = b + 1 := ⟨_, (Nat.succ_pred_eq_of_pos hq0).symm⟩
  unfold helmholtzFilter helmholtzDisc
  rw [ha, hb]
  simp [List.range_succ_eq_map, List.mapM_cons, hp, bind, Except.bind]

end

/-! ### A square of two triangles -/

/-- The unit square cut in two triangles, with the one-point rule the filter uses for them
(`/repo/feax/basis.py:70-72`, `/repo/feax/fe.py:75-128`). -/
def exSplit : FilterMesh ℚ where
  numNodes := 4
  nn := 3
  dim := 2
  cells := [[0, 1, 3], [0, 3, 2]]
  shapeVals := [[1/3, 1/3, 1/3]]
  grads := fun c _ => if c = 0 then [[-1, 0], [1, -1], [0, 1]] else [[0, -1], [1, 0], [-1, 1]]
  jxw := fun _ _ => 1/2

theorem exSplit_ok : Spec.FilterMeshOk exSplit where
  nn := by decide
  cells := by decide
  vals := by simp [exSplit]; norm_num
  grads := by
    intro c hc q hq
    simp only [exSplit, List.length_cons, List.length_nil] at hc hq
    have : c = 0 ∨ c = 1 := by omega
    refine ⟨by rcases this with rfl | rfl <;> rfl, fun k hk => ?_⟩
    simp only [exSplit] at hk
    have hk' : k = 0 ∨ k = 1 := by omega
    rcases this with rfl | rfl <;> rcases hk' with rfl | rfl <;> simp [exSplit, Finset.sum_range_succ]
  weights := fun c _ q _ => by simp [exSplit]

theorem exSplit_l2 (u v : List ℚ) : Spec.l2 exSplit u v
    = (u.getD 0 0 + u.getD 1 0 + u.getD 3 0) * (v.getD 0 0 + v.getD 1 0 + v.getD 3 0) / 18
    + (u.getD 0 0 + u.getD 3 0 + u.getD 2 0) * (v.getD 0 0 + v.getD 3 0 + v.getD 2 0) / 18 := by
  simp [Spec.l2, Spec.integral, Spec.fieldAt, exSplit, Finset.sum_range_succ]
  ring

theorem exSplit_dirichlet (u v : List ℚ) : Spec.dirichlet exSplit u v
    = ((u.getD 1 0 - u.getD 0 0) * (v.getD 1 0 - v.getD 0 0) + (u.getD 3 0 - u.getD 1 0) * (v.getD 3 0 - v.getD 1 0)) / 2
    + ((u.getD 3 0 - u.getD 2 0) * (v.getD 3 0 - v.getD 2 0) + (u.getD 2 0 - u.getD 0 0) * (v.getD 2 0 - v.getD 0 0)) / 2 := by
  simp [Spec.dirichlet, Spec.integral, Spec.slopeAt, exSplit, Finset.sum_range_succ]
  ring

theorem exSplit_visible (r : ℚ) (hr : r ≠ 0) (V : List ℚ → Prop) (hV : Spec.FieldSpace exSplit V) :
    Spec.Visible exSplit V (r ^ 2) := by
  apply C96_connected_visible exSplit exSplit_ok r hr (by simp [exSplit]) (fun c _ q _ => by simp [exSplit]) _ _
    (by simp [exSplit]) V hV
  · intro u hu c hc h
    have h0 := h 0 (by simp [exSplit]) 0 (by simp [exSplit])
    have h1 := h 0 (by simp [exSplit]) 1 (by simp [exSplit])
    simp only [exSplit, List.length_cons, List.length_nil] at hc
    have : c = 0 ∨ c = 1 := by omega
    rcases this with rfl | rfl <;>
    · simp [Spec.slopeAt, exSplit, Finset.sum_range_succ] at h0 h1
      intro i hi j hj
      simp [exSplit] at hi hj
      simp only [List.getD_eq_getElem?_getD]
      rcases hi with rfl | rfl | rfl <;> rcases hj with rfl | rfl | rfl <;> linarith
  · have hs : ∀ i < 4, Spec.ShareCell exSplit i 0 ∧ Spec.ShareCell exSplit 0 i := by
      intro i hi
      unfold Spec.ShareCell
      interval_cases i <;> simp [exSplit]
    intro i hi j hj
    exact (Relation.ReflTransGen.single (hs i hi).1).tail (hs j hj).2

example := exSplit_visible (1/6) (by norm_num) _ (allFields_space exSplit)

theorem exSplit_filtered (r2 : ℚ) (u a : List ℚ) (ha : a.length = 4)
    (h0 : ∀ i < 4, Spec.l2 exSplit a (unitVector 4 i) + r2 * Spec.dirichlet exSplit a (unitVector 4 i)
      = Spec.l2 exSplit u (unitVector 4 i)) :
    Spec.Filtered exSplit (Spec.AllFields exSplit) r2 u a := by
  refine ⟨ha, fun v _ => ?_⟩
  have e0 := h0 0 (by omega)
  have e1 := h0 1 (by omega)
  have e2 := h0 2 (by omega)
  have e3 := h0 3 (by omega)
  simp only [exSplit_l2, exSplit_dirichlet, unitVector] at e0 e1 e2 e3 ⊢
  simp at e0 e1 e2 e3
  simp only [List.getD_eq_getElem?_getD]
  linear_combination v[0]?.getD 0 * e0 + v[1]?.getD 0 * e1 + v[2]?.getD 0 * e2 + v[3]?.getD 0 * e3

/-- **C96 does not keep densities between 0 and 1.** On the unit square of two triangles, with radius `1/6`, a density
that is `1` at one corner and `0` at the others is filtered, by any exact solver, to `-1/6` at the opposite corner. -/
theorem C96_range_violated (backend : Backend ℚ) (direct symmetric : Bool)
    (hb : ExactSolver exSplit (1/6) backend direct symmetric [0, 1, 0, 0]) :
    helmholtzFilter exSplit (1/6) none backend direct symmetric [0, 1, 0, 0] = .ok [1/6, 1/2, -1/6, 1/6] := by
  obtain ⟨out, h1, h2⟩ := C96_filter_solves_partial exSplit exSplit_ok (by decide) (1/6) backend direct symmetric
    [0, 1, 0, 0] rfl hb
  have h3 : Spec.Filtered exSplit (Spec.AllFields exSplit) ((1/6) ^ 2) [0, 1, 0, 0] [1/6, 1/2, -1/6, 1/6] := by
    apply exSplit_filtered _ _ _ rfl
    intro i hi
    simp only [exSplit_l2, exSplit_dirichlet, unitVector]
    interval_cases i <;> norm_num
  rw [h1, C96_unique exSplit _ (allFields_space exSplit) _ (exSplit_visible _ (by norm_num) _ (allFields_space _)) _ _ _ h2 h3]

/-- **C96: a small radius need not mean little filtering.** On the same mesh a density concentrated at a corner shared by
both triangles is filtered to the constant `1/3`, however small the radius: the one-point rule sees only the mean of each
triangle. -/
theorem C96_small_radius_violated (r : ℚ) (hr : r ≠ 0) (backend : Backend ℚ) (direct symmetric : Bool)
    (hb : ExactSolver exSplit r backend direct symmetric [1, 0, 0, 0]) :
    helmholtzFilter exSplit r none backend direct symmetric [1, 0, 0, 0] = .ok [1/3, 1/3, 1/3, 1/3] := by
  obtain ⟨out, h1, h2⟩ := C96_filter_solves_partial exSplit exSplit_ok (by decide) r backend direct symmetric
    [1, 0, 0, 0] rfl hb
  have h3 : Spec.Filtered exSplit (Spec.AllFields exSplit) (r ^ 2) [1, 0, 0, 0] [1/3, 1/3, 1/3, 1/3] := by
    apply exSplit_filtered _ _ _ rfl
    intro i hi
    simp only [exSplit_l2, exSplit_dirichlet, unitVector]
    interval_cases i <;> norm_num
  rw [h1, C96_unique exSplit _ (allFields_space exSplit) _ (exSplit_visible _ hr _ (allFields_space _)) _ _ _ h2 h3]

/-- Exact solvers for these runs exist. -/
example (r : ℚ) (hr : r ≠ 0) (direct symmetric : Bool) (rho : List ℚ) (hx : rho.length = 4) :
    ∃ backend, ExactSolver exSplit r backend direct symmetric rho :=
  C96_solvable exSplit exSplit_ok (by decide) r (exSplit_visible r hr _ (allFields_space _)) direct symmetric rho hx

/-- **C96 fails on elements of higher order**: the element detected from the array shapes is right for the four linear
elements and wrong for every other supported one. -/
theorem C96_element_detected (t : EleType) :
    helmholtzElement t.dim t.reOrder.length = (t, t.dim) ↔ t = .TRI3 ∨ t = .QUAD4 ∨ t = .TET4 ∨ t = .HEX8 := by
  cases t <;> decide

/-- Left and right sides of the square identified. -/
def exSides : PeriodicPairing (ℤ × ℤ) := ⟨fun x => x.1 == 0, fun x => x.1 == 1, fun x => (x.1 + 1, x.2), 0⟩

def exCorners : List (ℤ × ℤ) := [(0, 0), (1, 0), (0, 1), (1, 1)]

def exSidesProl : Coo ℚ := ⟨4, 2, [(0, 0, 1), (1, 0, 1), (2, 1, 1), (3, 1, 1)]⟩

theorem exSides_ok : prolongationMatrix (fun a b : ℤ × ℤ => a == b) exCorners 1 [exSides] = .ok exSidesProl := by decide

theorem exSides_chain (i j k : ℕ) (h1 : Spec.PairedDofs (fun a b : ℤ × ℤ => a == b) exCorners 1 [exSides] i j) :
    ¬ Spec.PairedDofs (fun a b : ℤ × ℤ => a == b) exCorners 1 [exSides] k i := by
  obtain ⟨bc, hbc, a, b, ⟨pi, pj, ha, hb, hm, hs, _⟩, rfl, rfl⟩ := h1
  rintro ⟨bc', hbc', a', b', ⟨pi', pj', ha', hb', hm', hs', _⟩, rfl, he⟩
  obtain rfl := List.mem_singleton.mp hbc
  obtain rfl := List.mem_singleton.mp hbc'
  simp only [exSides, beq_iff_eq, add_zero, mul_one] at hm hs' he
  subst he
  rw [ha] at hb'
  obtain rfl := Option.some.inj hb'
  omega

/-- The periodic filter on the square has an exact solver, and its result solves the periodic problem. -/
example (rho : List ℚ) (hx : rho.length = 4) : ∃ backend out,
    helmholtzFilter exSplit (1/5) (some exSidesProl) backend true true rho = .ok out ∧
      Spec.Filtered exSplit (Spec.TiedFields exSplit (Spec.PairedDofs (fun a b : ℤ × ℤ => a == b) exCorners 1 [exSides]))
        ((1/5) ^ 2) rho out := by
  obtain ⟨backend, hb⟩ := C96_periodic_solvable exSplit exSplit_ok (by decide) _ exCorners [exSides] exSidesProl exSides_ok
    exSides_chain rfl (1/5) (exSplit_visible _ (by norm_num) _ (tiedFields_space _ _)) rho hx
  obtain ⟨out, ho⟩ := C96_periodic_filter_solves_partial exSplit exSplit_ok (by decide) _ exCorners [exSides] exSidesProl
    exSides_ok exSides_chain rfl (1/5) backend true true rho hx hb
  exact ⟨backend, out, ho⟩

theorem exSplit_overshoot : Spec.Filtered exSplit (Spec.AllFields exSplit) ((1/6) ^ 2) [0, 1, 0, 0] [1/6, 1/2, -1/6, 1/6] := by
  apply exSplit_filtered _ _ _ rfl
  intro i hi
  simp only [exSplit_l2, exSplit_dirichlet, unitVector]
  interval_cases i <;> norm_num

example := C96_linear exSplit _ (allFields_space exSplit) ((1/6) ^ 2) 2 _ _ _ _ rfl exSplit_overshoot exSplit_overshoot
example := C96_constants_kept exSplit exSplit_ok (Spec.AllFields exSplit) 7 5 (by simp [Spec.AllFields])
example := C96_volume_kept exSplit exSplit_ok (Spec.AllFields exSplit) _ (by simp [Spec.AllFields]) _ _ exSplit_overshoot
example := C96_self_adjoint exSplit _ _ _ _ _ _ exSplit_overshoot exSplit_overshoot
example := C96_damps exSplit exSplit_ok _ (allFields_space exSplit) (1/6) _ _ rfl exSplit_overshoot
example := C96_smooths exSplit exSplit_ok _ (allFields_space exSplit) (1/6) (by norm_num) [0, 1, 0, 0] _
  (by simp [Spec.AllFields, exSplit]) exSplit_overshoot

/-- A rectangle of three by two squares, each cut in two triangles: twelve nodes and twelve cells. -/
def exTwelve : FilterMesh ℚ where
  numNodes := 12
  nn := 3
  dim := 2
  cells := [0, 1, 2, 4, 5, 6].flatMap fun a => [[a, a + 1, a + 5], [a, a + 5, a + 4]]
  shapeVals := [[1/3, 1/3, 1/3]]
  grads := fun c _ => if c % 2 = 0 then [[-1, 0], [1, -1], [0, 1]] else [[0, -1], [1, 0], [-1, 1]]
  jxw := fun _ _ => 1/2

theorem exTwelve_ok : Spec.FilterMeshOk exTwelve where
  nn := by decide
  cells := by decide
  vals := by simp [exTwelve]; norm_num
  grads := by
    intro c hc q hq
    refine ⟨by simp only [exTwelve]; split_ifs <;> rfl, fun k hk => ?_⟩
    simp only [exTwelve] at hk
    have hk' : k = 0 ∨ k = 1 := by omega
    rcases hk' with rfl | rfl <;> simp only [exTwelve] <;> split_ifs <;> simp [Finset.sum_range_succ]
  weights := fun c _ q _ => by simp [exTwelve]

example := C96_equal_counts_violated exTwelve exTwelve_ok (by decide) (by decide) (by decide)

end Verif.Props
