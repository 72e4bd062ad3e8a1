import Verif.Props.Energy
import Verif.Model.Responses
import Mathlib.Algebra.Order.Field.Basic
import Mathlib.Tactic.FieldSimp

/-!
# C85: compliance, C86: volume fraction
-/

namespace Verif.Props

open Verif.Model

section compliance
variable {K : Type*} [CommRing K]

/-- The surface form of a list of surface maps; boundaries without a map are not loaded. -/
def mapsForm (maps : List (SurfaceMap K)) (s : ℕ) : SurfaceForm K :=
  fun vals x iv => [(maps.getD s (fun u _ _ => u.map (fun _ => 0))) (vals.getD 0 []) x iv]

/-- Work of the surface terms on the field `u` itself: `Σ ∫ t(u) · u`. -/
def surfaceWorkOn (d : Discretization K (List (QPoint K)) (List (QPoint K))) (maps : List (SurfaceMap K))
    (u : List K) : K :=
  overFaces d (fun s nodes q => Spec.surfaceWork (fields d.p.vars) nodes (mapsForm maps s) u u q)

theorem displacement_entry (v : Var) (sol : List K) (node c : ℕ) (hn : node < v.numNodes) (hc : c < v.vec) :
    ((displacement v sol).getD node []).getD c 0 = sol.getD (node * v.vec + c) 0 := by
  unfold displacement
  rw [reshape_entry _ _ _ _ _ hn hc]
  have : node * v.vec + c < v.numNodes * v.vec := by
    calc node * v.vec + c < node * v.vec + v.vec := by omega
      _ = (node + 1) * v.vec := by ring
      _ ≤ _ := Nat.mul_le_mul_right _ hn
  simp [List.getD_eq_getElem?_getD, List.getElem?_take, this]

theorem opEval_displacement (d : Discretization K (List (QPoint K)) (List (QPoint K))) (h : DiscOK d) (v : Var)
    (hv : d.p.vars = [v]) (sol : List K) (cell : ℕ) (N : List K) :
    opEval v.vec ((v.cells.getD cell []).map (fun node => (displacement v sol).getD node [])) N
      = (List.range v.vec).map (fun c =>
          Spec.fieldValue (fields d.p.vars) sol 0 ((cellNodes d.p cell).getD 0 []) N c) := by
  have h0 : 0 < d.p.vars.length := by rw [hv]; simp
  have hv0 : d.p.vars.getD 0 noVar = v := by rw [hv]; rfl
  unfold opEval
  apply List.map_congr_left
  intro c hc
  rw [cellNodes_getD d.p _ 0 h0, hv0, List.length_map]
  unfold Spec.fieldValue
  apply Finset.sum_congr rfl
  intro a ha
  have ha' : a < (v.cells.getD cell []).length := by simpa using ha
  have hnode := cellNode_lt d.p h.wf cell 0 h0 a (by rw [cellNodes_getD d.p _ 0 h0, hv0]; exact ha')
  rw [cellNodes_getD d.p _ 0 h0, hv0] at hnode
  rw [dofNumber_first, hv0, ← displacement_entry v sol _ c hnode (by simpa using hc)]
  congr 2
  rw [List.getD_eq_getElem (List.map _ _) _ (by simpa using ha'), List.getElem_map,
    List.getD_eq_getElem _ _ ha']

theorem list_sum_neg {A : Type*} (l : List A) (f : A → K) : (l.map (fun a => -f a)).sum = -(l.map f).sum := by
  induction l with
  | nil => simp
  | cons a l ih => simp only [List.map_cons, List.sum_cons, ih]; ring

theorem complianceOn_eq (d : Discretization K (List (QPoint K)) (List (QPoint K))) (h : DiscOK d) (v : Var)
    (hv : d.p.vars = [v]) (maps : List (SurfaceMap K)) (u : List K) :
    complianceOn v maps d.facesIn d.p.faceCells u = -surfaceWorkOn d maps u := by
  have hv0 : d.p.vars.getD 0 noVar = v := by rw [hv]; rfl
  have hlen : (fields d.p.vars).length = 1 := by rw [fields_length, hv]; rfl
  unfold complianceOn surfaceWorkOn overFaces
  simp only
  rw [← list_sum_neg]
  congr 1
  apply List.map_congr_left
  intro bd _
  rw [← list_sum_neg]
  congr 1
  apply List.map_congr_left
  intro face _
  rw [← list_sum_neg]
  congr 1
  apply List.map_congr_left
  intro q _
  unfold compliancePoint Spec.surfaceWork mapsForm Spec.valuesAt
  dsimp only
  rw [opEval_displacement d h v hv]
  simp only [hlen, List.range_one, List.map_cons, List.map_nil, List.getD_cons_zero, fields_vec', hv0,
    Finset.sum_range_one]
  rw [Finset.sum_mul, ← Finset.sum_neg_distrib]
  apply Finset.sum_congr rfl
  intro c hc
  have : ((List.range v.vec).map (fun c => Spec.fieldValue (fields d.p.vars) u 0 ((cellNodes d.p face.2).getD 0 [])
      (Spec.fe q 0).vals c)).getD c 0 = Spec.fieldValue (fields d.p.vars) u 0 ((cellNodes d.p face.2).getD 0 [])
      (Spec.fe q 0).vals c := by
    rw [List.getD_eq_getElem _ _ (by simpa using hc)]
    simp
  show -_ * ((List.range v.vec).map (fun c => Spec.fieldValue (fields d.p.vars) u 0 ((cellNodes d.p face.2).getD 0 [])
      (Spec.fe q 0).vals c)).getD c 0 * (Spec.fe q 0).jxw = _
  rw [this]
  unfold Spec.fe
  ring

/-- **C85, meaning of the parameter argument.** `None` means `1.0` for every surface; a scalar means that value
for every surface; a sequence must have one entry per surface, otherwise `ValueError`; each surface's map is
called with its own entry. Without surfaces the compliance is zero. -/
theorem C85_load_parameters (v : Var) (maps : List (SurfaceMap K)) (faces : List (List (List (QPoint K))))
    (faceCells : List (List ℕ)) (sol : List K) :
    (complianceFn v maps .none faces faceCells sol = complianceFn v maps (.scalar 1) faces faceCells sol) ∧
    (∀ x, complianceFn v maps (.scalar x) faces faceCells sol
      = complianceFn v maps (.seq (List.replicate faces.length x)) faces faceCells sol) ∧
    (∀ xs, faces ≠ [] → xs.length ≠ faces.length →
      complianceFn v maps (.seq xs) faces faceCells sol = .error .valueError) ∧
    (∀ xs, xs.length = faces.length → complianceFn v maps (.seq xs) faces faceCells sol
      = .ok (complianceOn v maps (List.zipWith withParam faces (xs.map (fun x => [x]))) faceCells sol)) ∧
    (∀ p, faces = [] → complianceFn v maps p faces faceCells sol = .ok 0) := by
  refine ⟨rfl, ?_, ?_, ?_, ?_⟩
  · intro x
    simp [complianceFn, loadParams]
  · intro xs h0 hne
    have : faces.length ≠ 0 := by simpa using h0
    simp [complianceFn, loadParams, this, hne]
  · intro xs h
    by_cases h0 : faces.length = 0
    · have : faces = [] := by simpa using h0
      subst this
      simp [complianceFn, complianceOn]
    · simp [complianceFn, loadParams, h0, h]
  · rintro p rfl
    simp [complianceFn]

/-- The zero volume form. -/
def noVolume : WeakForm K := formOf none none

theorem volumeWork_noVolume (fs : List Spec.Field) (nodes : List (List ℕ)) (dim : ℕ) (u w : List K) (q : QPoint K) :
    Spec.volumeWork fs nodes dim noVolume u w q = 0 := by
  unfold Spec.volumeWork noVolume formOf
  apply Finset.sum_eq_zero
  intro i _
  have h1 : ∀ c, ((([[]] : List (List K)).getD i []).getD c 0) = 0 := by
    intro c; cases i <;> simp
  have h2 : ∀ c k, (((([[]] : List (List (List K))).getD i []).getD c []).getD k 0) = 0 := by
    intro c k; cases i <;> simp
  simp only [h1, h2, zero_mul, Finset.sum_const_zero, add_zero]

/-- **C85, compliance is the work of the loads.** The compliance is minus the inner product of the displacement
with the residual of the surface maps alone, that is `∫ f · u` for the external traction `f = -t` which the
surface map enters into the residual with. -/
theorem C85_compliance_is_load_work (d : Discretization K (List (QPoint K)) (List (QPoint K))) (h : DiscOK d)
    (dim : ℕ) (v : Var) (hv : d.p.vars = [v]) (maps : List (SurfaceMap K))
    (hk : FormKernels d dim noVolume (mapsForm maps)) (u : List K) :
    complianceOn v maps d.facesIn d.p.faceCells u = -Spec.inner d.p.n (d.residualAt u) u := by
  rw [complianceOn_eq d h v hv, C82_residual_is_the_weak_form d h dim _ _ hk, totalWork_eq, overCells_zero, zero_add]
  · rfl
  · intro nodes q
    exact volumeWork_noVolume _ _ _ _ _ _

/-- Internal work `∫ m·u + σ:∇u` of a one-variable problem at the state `u`. -/
def internalWork (d : Discretization K (List (QPoint K)) (List (QPoint K))) (dim : ℕ) (wf : WeakForm K)
    (u : List K) : K :=
  overCells d (fun nodes q => Spec.volumeWork (fields d.p.vars) nodes dim wf u u q)

/-- **C85, Clapeyron.** At a converged state with homogeneous Dirichlet conditions the compliance equals the
internal work. -/
theorem C85_compliance_is_internal_work (d : Discretization K (List (QPoint K)) (List (QPoint K))) (h : DiscOK d)
    (dim : ℕ) (v : Var) (hv : d.p.vars = [v]) (wf : WeakForm K) (maps : List (SurfaceMap K))
    (hk : FormKernels d dim wf (mapsForm maps)) (u : List K) (rows : List ℕ)
    (hconv : ∀ i < d.p.n, i ∉ rows → (d.residualAt u).getD i 0 = 0)
    (hzero : ∀ i ∈ rows, u.getD i 0 = 0) :
    complianceOn v maps d.facesIn d.p.faceCells u = internalWork d dim wf u := by
  have hw := (C82_equilibrium_is_galerkin d h dim wf _ hk rows u).mp hconv u hzero
  rw [totalWork_eq] at hw
  rw [complianceOn_eq d h v hv]
  unfold internalWork surfaceWorkOn
  exact (eq_neg_of_add_eq_zero_left hw).symm

/-- **C85, strain energy.** For a density whose derivative satisfies `2 ψ(H) = σ(H) : H` (linear elasticity), at
a converged state with homogeneous Dirichlet conditions the compliance is twice the total energy that
`create_energy_fn` returns. -/
theorem C85_compliance_is_twice_the_energy (d : Discretization K (List (QPoint K)) (List (QPoint K))) (h : DiscOK d)
    (dim : ℕ) (v : Var) (hv : d.p.vars = [v]) (psi : List (List K) → List K → K)
    (T : List (List K) → List K → List (List K)) (maps : List (SurfaceMap K))
    (hpsi : ∀ pts ∈ d.cellsIn, ∀ q ∈ pts, ∀ F : ℕ → ℕ → K, 2 * psi (matOf v.vec dim F) q.iv
      = ∑ c ∈ Finset.range v.vec, ∑ k ∈ Finset.range dim, ((T (matOf v.vec dim F) q.iv).getD c []).getD k 0 * F c k)
    (hk : FormKernels d dim (formOf none (some T)) (mapsForm maps)) (u : List K) (rows : List ℕ)
    (hconv : ∀ i < d.p.n, i ∉ rows → (d.residualAt u).getD i 0 = 0)
    (hzero : ∀ i ∈ rows, u.getD i 0 = 0) :
    complianceOn v maps d.facesIn d.p.faceCells u = 2 * energyFn v dim psi d.cellsIn u := by
  rw [C85_compliance_is_internal_work d h dim v hv _ maps hk u rows hconv hzero, energyFn_eq d h dim v hv]
  have hv0 : d.p.vars.getD 0 noVar = v := by rw [hv]; rfl
  have hlen : (fields d.p.vars).length = 1 := by rw [fields_length, hv]; rfl
  unfold internalWork
  rw [two_mul, ← overCells_add]
  apply overCells_congr
  intro cell hc q hq
  have hmem : cell.1 ∈ d.cellsIn := by
    have := (List.mem_zipIdx hc).2.2; rw [this]; exact List.getElem_mem _
  rw [← add_mul, ← two_mul, hpsi _ hmem q hq]
  unfold Spec.volumeWork
  simp only [hlen, Finset.sum_range_one, fields_vec', hv0]
  congr 1
  rw [Finset.sum_eq_zero, zero_add]
  · apply Finset.sum_congr rfl
    intro c _
    apply Finset.sum_congr rfl
    intro k _
    congr 1
    unfold formOf Spec.gradsAt
    simp only [hlen, List.range_one, List.map_cons, List.map_nil, List.getD_cons_zero, fields_vec', hv0]
    rfl
  · intro c _
    simp [formOf]

theorem zipWith_residualFaces (faces : List (List (List (QPoint K)))) (sv : List (List (List (List K))))
    (h : sv.length = faces.length) : List.zipWith withVars faces sv = residualFaces faces sv := by
  apply List.ext_getElem
  · simp [residualFaces, h]
  · intro i h1 h2
    have hi : i < sv.length := by simp at h1; omega
    simp [residualFaces, hi]

/-- **C85, run-time parameters (partial).** If `surface_vars` has an entry for each surface, the dynamic
compliance is the compliance of exactly the loads the residual applies. What is missing: with fewer entries the
residual still applies the remaining loads, the compliance does not (`C85_dynamic_drops_surfaces`). -/
theorem C85_dynamic_compliance_partial (v : Var) (maps : List (SurfaceMap K)) (faces : List (List (List (QPoint K))))
    (faceCells : List (List ℕ)) (sol : List K) (sv : List (List (List (List K)))) (h : sv.length = faces.length) :
    dynamicComplianceFn v maps faces faceCells sol sv = complianceOn v maps (residualFaces faces sv) faceCells sol := by
  unfold dynamicComplianceFn
  rw [zipWith_residualFaces faces sv h]
  split
  · rename_i h0
    have : faces = [] := by simpa using h0
    subst this
    simp [residualFaces, complianceOn]
  · rfl

end compliance

/-! ### Violations and concrete cases of C85 -/

section complianceExamples

/-- Two line elements on `[0, 2]`, both ends loaded. -/
def exEndFaces : List (List (List (QPoint ℚ))) :=
  [[[⟨[0], [], [⟨[1, 0], [[-1], [1]], 1⟩]⟩]], [[⟨[2], [], [⟨[0, 1], [[-1], [1]], 1⟩]⟩]]]

def exLine : Var := ⟨1, 3, 2, [[0, 1], [1, 2]]⟩

/-- Both ends carry a traction proportional to the first number of the parameter. -/
def exEndMaps : List (SurfaceMap ℚ) := [fun _ _ p => [-(p.getD 0 0)], fun _ _ p => [-(p.getD 0 0)]]

/-- **C85 (violation).** A `numpy` array with one parameter per surface is not split: every surface gets the
whole array, here the first parameter twice, although the documentation promises one entry per surface. -/
theorem C85_numpy_array_not_split :
    complianceFn exLine exEndMaps (.seq [3, 5]) exEndFaces [[0], [1]] [1, 0, 2] = .ok 13 ∧
    complianceFn exLine exEndMaps (.numpyArray [3, 5]) exEndFaces [[0], [1]] [1, 0, 2] = .ok 9 := by
  constructor
  · exact congrArg Except.ok (show complianceOn exLine exEndMaps (List.zipWith withParam exEndFaces [[3], [5]]) [[0], [1]]
      [1, 0, 2] = 13 by decide +kernel)
  · exact congrArg Except.ok (show complianceOn exLine exEndMaps (List.zipWith withParam exEndFaces [[3, 5], [3, 5]])
      [[0], [1]] [1, 0, 2] = 9 by decide +kernel)

/-- Loads that need no parameters. -/
def exConstMaps : List (SurfaceMap ℚ) := [fun _ _ _ => [-2], fun _ _ _ => [-7]]

/-- **C85 (violation).** With fewer entries in `surface_vars` than surfaces (`()` is legal for maps without
parameters) the residual applies all loads, but the dynamic compliance leaves out the surfaces beyond the end. -/
theorem C85_dynamic_drops_surfaces :
    dynamicComplianceFn exLine exConstMaps exEndFaces [[0], [1]] [1, 0, 2] [] = 0 ∧
    complianceOn exLine exConstMaps (residualFaces exEndFaces []) [[0], [1]] [1, 0, 2] = 16 := by
  constructor <;> decide +kernel

/-- **C85 (violation).** Loads declared as surface weak forms are not seen: a problem without surface maps has
zero compliance whatever its loads. -/
theorem C85_weak_form_loads_ignored {K : Type*} [CommRing K] (v : Var) (params : LoadParams K)
    (faces : List (List (List (QPoint K)))) (faceCells : List (List ℕ)) (sol : List K) (c : K)
    (h : complianceFn v [] params faces faceCells sol = .ok c) : c = 0 := by
  have key : ∀ fs : List (List (List (QPoint K))), complianceOn v [] fs faceCells sol = 0 := by
    intro fs
    unfold complianceOn
    apply List.sum_eq_zero
    intro x hx
    obtain ⟨bd, _, rfl⟩ := List.mem_map.mp hx
    apply List.sum_eq_zero
    intro x hx
    obtain ⟨face, _, rfl⟩ := List.mem_map.mp hx
    apply List.sum_eq_zero
    intro x hx
    obtain ⟨q, _, rfl⟩ := List.mem_map.mp hx
    unfold compliancePoint
    apply Finset.sum_eq_zero
    intro c _
    simp
  unfold complianceFn at h
  split at h
  · exact (Except.ok.inj h).symm
  · split at h
    · simp at h
    · rw [key] at h
      exact (Except.ok.inj h).symm

/-- A bar of two elements fixed at the left end and pulled at the right end by a force `3`: `-u'' = 0`. -/
def exBar : Discretization ℚ (List (QPoint ℚ)) (List (QPoint ℚ)) :=
  formDisc ⟨[exLine], 2, [[1]], .full⟩ 1 (formOf none (some (fun H _ => H))) (mapsForm [fun _ _ p => [-(p.getD 0 0)]])
    [[⟨[1 / 2], [], [⟨[1 / 2, 1 / 2], [[-1], [1]], 1⟩]⟩], [⟨[3 / 2], [], [⟨[1 / 2, 1 / 2], [[-1], [1]], 1⟩]⟩]]
    [[[⟨[2], [3], [⟨[0, 1], [[-1], [1]], 1⟩]⟩]]]

theorem exBar_ok : DiscOK exBar :=
  formDisc_ok _ ⟨by intro v hv; simp only [List.mem_cons, List.not_mem_nil, or_false] at hv; subst hv
                    exact ⟨by decide, by decide, by decide⟩, by decide⟩ _ _ _ _ _ rfl (.cons rfl .nil)

theorem exBar_kernels : FormKernels exBar 1 (formOf none (some (fun H _ => H)))
    (mapsForm [fun _ _ p => [-(p.getD 0 0)]]) where
  vol := fun _ _ => rfl
  surf := fun _ _ _ => rfl
  cellPts := by
    intro pts hpts q hq
    simp only [exBar, formDisc, List.mem_cons, List.not_mem_nil, or_false] at hpts
    rcases hpts with rfl | rfl <;>
    · simp only [List.mem_cons, List.not_mem_nil, or_false] at hq
      subst hq
      exact ⟨rfl, rfl⟩
  facePts := by
    intro fs hfs pts hpts q hq
    simp only [exBar, formDisc, List.mem_cons, List.not_mem_nil, or_false] at hfs
    subst hfs
    simp only [List.mem_cons, List.not_mem_nil, or_false] at hpts
    subst hpts
    simp only [List.mem_cons, List.not_mem_nil, or_false] at hq
    subst hq
    exact ⟨rfl, rfl⟩

/-- The exact solution `3 x` of the bar satisfies the hypotheses of the work theorems with a non-zero value:
compliance `18`, twice the energy `9`. -/
example : (∀ i < exBar.p.n, i ∉ [0] → (exBar.residualAt [0, 3, 6]).getD i 0 = 0) ∧
    complianceOn exLine [fun _ _ p => [-(p.getD 0 0)]] exBar.facesIn exBar.p.faceCells [0, 3, 6] = 18 ∧
    energyFn exLine 1 (fun H _ => ((H.getD 0 []).getD 0 0) ^ 2 / 2) exBar.cellsIn [0, 3, 6] = 9 := by
  refine ⟨?_, by decide +kernel, by decide +kernel⟩
  intro i hi h0
  have hi' : i < 3 := hi
  rw [← inner_single exBar.p.n i hi,
    C82_residual_is_the_weak_form exBar exBar_ok 1 _ _ exBar_kernels]
  interval_cases i
  · simp at h0
  · decide +kernel
  · decide +kernel

end complianceExamples

/-! ## C86: volume fraction -/

section volume
variable {K : Type*} [Field K]

/-- Arrays of consistent shapes; node numbers in range; the shape functions sum to one at each point. -/
structure VolumeData.WF (p : VolumeData K) : Prop where
  rows : p.jxw.length = p.cells.length
  cols : ∀ r ∈ p.jxw, r.length = p.numQuads
  nodes : ∀ r ∈ p.cells, ∀ x ∈ r, x < p.numNodes
  unity : ∀ r ∈ p.cells, ∀ q < p.numQuads, ∑ a ∈ Finset.range r.length, (p.shapeVals.getD q []).getD a 0 = 1

/-- Weight of quadrature point `q` of cell `c`. -/
def weightAt (p : VolumeData K) (c q : ℕ) : K := (p.jxw.getD c []).getD q 0

/-- Integral over the mesh of a density given at the quadrature points. -/
def meshIntegral (p : VolumeData K) (f : ℕ → ℕ → K) : K :=
  ∑ c ∈ Finset.range p.cells.length, ∑ q ∈ Finset.range p.numQuads, f c q * weightAt p c q

theorem sum_zipIdx_eq {A : Type*} (dflt : A) (l : List A) (f : A → ℕ → K) :
    (l.zipIdx.map (fun x => f x.1 x.2)).sum = ∑ i ∈ Finset.range l.length, f (l.getD i dflt) i := by
  rw [← sum_map_range]
  congr 1
  apply List.ext_getElem
  · simp
  · intro i h1 h2
    have hi : i < l.length := by simpa using h1
    simp [hi]

theorem integrate_eq (p : VolumeData K) (h : VolumeData.WF p) (f : ℕ → ℕ → K) :
    p.integrate f = meshIntegral p f := by
  unfold VolumeData.integrate meshIntegral
  rw [sum_zipIdx_eq [] p.jxw (fun row c => (row.zipIdx.map (fun w => f c w.2 * w.1)).sum), h.rows]
  apply Finset.sum_congr rfl
  intro c hc
  have hc' : c < p.jxw.length := by rw [h.rows]; simpa using hc
  rw [sum_zipIdx_eq 0 (p.jxw.getD c []) (fun w q => f c q * w)]
  have : (p.jxw.getD c []).length = p.numQuads := by
    rw [List.getD_eq_getElem _ _ hc']; exact h.cols _ (List.getElem_mem _)
  rw [this]
  rfl

theorem domain_eq (p : VolumeData K) (h : VolumeData.WF p) : p.domain = meshIntegral p (fun _ _ => 1) := by
  rw [← integrate_eq p h]
  unfold VolumeData.integrate VolumeData.domain
  congr 1
  apply List.ext_getElem
  · simp
  · intro i h1 h2
    have hi : i < p.jxw.length := by simpa using h1
    simp only [List.getElem_map, List.getElem_zipIdx, Nat.zero_add, one_mul]
    congr 1
    apply List.ext_getElem
    · simp
    · intro j j1 j2; simp

/-- Value at point `q` of cell `c` of a nodal density. -/
def nodalDensity (p : VolumeData K) (rho : List K) (c q : ℕ) : K :=
  ∑ a ∈ Finset.range (p.cells.getD c []).length,
    (p.shapeVals.getD q []).getD a 0 * rho.getD ((p.cells.getD c []).getD a 0) 0

theorem volumeFn_node (p : VolumeData K) (h : VolumeData.WF p) (rho : List K) (hl : rho.length = p.numNodes) :
    volumeFn p rho = .ok (meshIntegral p (nodalDensity p rho) / meshIntegral p (fun _ _ => 1)) := by
  unfold volumeFn
  rw [if_pos hl, integrate_eq p h, domain_eq p h]
  congr 2
  congr 1
  funext c q
  rw [sum_zipIdx_eq 0 (p.cells.getD c []) (fun n a => (p.shapeVals.getD q []).getD a 0 * rho.getD n 0)]
  rfl

/-- **C86, meaning.** The volume fraction is the integral of the density over the mesh divided by the volume of
the mesh. A nodal array is interpolated with the shape functions, a cell array is constant per cell, a
quadrature array is taken as it is; the size decides which, in this order, and any other size is an error. -/
theorem C86_volume_fraction (p : VolumeData K) (h : VolumeData.WF p) (rho : List K) :
    (rho.length = p.numNodes →
      volumeFn p rho = .ok (meshIntegral p (nodalDensity p rho) / meshIntegral p (fun _ _ => 1))) ∧
    (rho.length ≠ p.numNodes → rho.length = p.cells.length →
      volumeFn p rho = .ok (meshIntegral p (fun c _ => rho.getD c 0) / meshIntegral p (fun _ _ => 1))) ∧
    (rho.length ≠ p.numNodes → rho.length ≠ p.cells.length → rho.length = p.cells.length * p.numQuads →
      volumeFn p rho = .ok (meshIntegral p (fun c q => rho.getD (c * p.numQuads + q) 0)
        / meshIntegral p (fun _ _ => 1))) ∧
    (rho.length ≠ p.numNodes → rho.length ≠ p.cells.length → rho.length ≠ p.cells.length * p.numQuads →
      volumeFn p rho = .error .typeError) := by
  refine ⟨volumeFn_node p h rho, ?_, ?_, ?_⟩
  · intro h1 h2
    unfold volumeFn
    rw [if_neg h1, if_pos h2, integrate_eq p h, domain_eq p h]
  · intro h1 h2 h3
    unfold volumeFn
    rw [if_neg h1, if_neg h2, if_pos h3, integrate_eq p h, domain_eq p h]
  · intro h1 h2 h3
    unfold volumeFn
    rw [if_neg h1, if_neg h2, if_neg h3]

theorem meshIntegral_smul (p : VolumeData K) (f : ℕ → ℕ → K) (x : K) (hf : ∀ c < p.cells.length, ∀ q < p.numQuads, f c q = x) :
    meshIntegral p f = x * meshIntegral p (fun _ _ => 1) := by
  unfold meshIntegral
  rw [Finset.mul_sum]
  apply Finset.sum_congr rfl
  intro c hc
  rw [Finset.mul_sum]
  apply Finset.sum_congr rfl
  intro q hq
  rw [hf c (by simpa using hc) q (by simpa using hq)]
  ring

theorem replicate_getD_lt (n i : ℕ) (x : K) (h : i < n) : (List.replicate n x).getD i 0 = x := by
  simp [List.getD_eq_getElem?_getD, h]

/-- **C86, uniform density.** A uniform density `x`, in any of the three storages, has volume fraction `x`: in
particular a full design has volume fraction one. -/
theorem C86_uniform_density (p : VolumeData K) (h : VolumeData.WF p) (hV : meshIntegral p (fun _ _ => 1) ≠ 0) (x : K)
    (n : ℕ) (hn : n = p.numNodes ∨ n = p.cells.length ∨ n = p.cells.length * p.numQuads) :
    volumeFn p (List.replicate n x) = .ok x := by
  have hC := C86_volume_fraction p h (List.replicate n x)
  have fin : ∀ f : ℕ → ℕ → K, (∀ c < p.cells.length, ∀ q < p.numQuads, f c q = x) →
      meshIntegral p f / meshIntegral p (fun _ _ => 1) = x := by
    intro f hf
    rw [meshIntegral_smul p f x hf, mul_div_assoc, div_self hV, mul_one]
  by_cases h1 : n = p.numNodes
  · rw [hC.1 (by simpa using h1), fin]
    intro c hc q hq
    unfold nodalDensity
    have hmem : p.cells.getD c [] ∈ p.cells := by
      rw [List.getD_eq_getElem _ _ hc]; exact List.getElem_mem _
    have : ∀ a ∈ Finset.range (p.cells.getD c []).length,
        (p.shapeVals.getD q []).getD a 0 * (List.replicate n x).getD ((p.cells.getD c []).getD a 0) 0
          = (p.shapeVals.getD q []).getD a 0 * x := by
      intro a ha
      rw [replicate_getD_lt]
      rw [h1]
      apply h.nodes _ hmem
      have ha' : a < (p.cells.getD c []).length := by simpa using ha
      rw [List.getD_eq_getElem (p.cells.getD c []) _ ha']
      exact List.getElem_mem _
    rw [Finset.sum_congr rfl this, ← Finset.sum_mul, h.unity _ hmem q hq, one_mul]
  · by_cases h2 : n = p.cells.length
    · rw [hC.2.1 (by simpa using h1) (by simpa using h2), fin]
      intro c hc q hq
      exact replicate_getD_lt _ _ _ (by omega)
    · have h3 : n = p.cells.length * p.numQuads := by tauto
      rw [hC.2.2.1 (by simpa using h1) (by simpa using h2) (by simpa using h3), fin]
      intro c hc q hq
      apply replicate_getD_lt
      calc c * p.numQuads + q < c * p.numQuads + p.numQuads := by omega
        _ = (c + 1) * p.numQuads := by ring
        _ ≤ n := by rw [h3]; exact Nat.mul_le_mul_right _ hc

/-- **C86, linearity.** For arrays of the same size the volume fraction is linear in the density. -/
theorem C86_linear (p : VolumeData K) (h : VolumeData.WF p) (rho sigma : List K) (hl : rho.length = sigma.length)
    (t a b : K) (ha : volumeFn p rho = .ok a) (hb : volumeFn p sigma = .ok b) :
    volumeFn p (along rho sigma t) = .ok (a + t * b) := by
  have hal := along_length rho sigma hl t
  have hg := along_getD rho sigma hl t
  have lin : ∀ f g k : ℕ → ℕ → K, (∀ c q, k c q = f c q + t * g c q) →
      meshIntegral p k / meshIntegral p (fun _ _ => 1)
        = meshIntegral p f / meshIntegral p (fun _ _ => 1) + t * (meshIntegral p g / meshIntegral p (fun _ _ => 1)) := by
    intro f g k hk
    rw [← mul_div_assoc, ← add_div]
    congr 1
    unfold meshIntegral
    simp only [hk, add_mul, Finset.sum_add_distrib, Finset.mul_sum, mul_assoc]
  have h1 := C86_volume_fraction p h rho
  have h2 := C86_volume_fraction p h sigma
  have h3 := C86_volume_fraction p h (along rho sigma t)
  by_cases c1 : rho.length = p.numNodes
  · rw [h1.1 c1] at ha
    rw [h2.1 (by omega)] at hb
    rw [h3.1 (by omega), ← Except.ok.inj ha, ← Except.ok.inj hb]
    congr 1
    apply lin
    intro c q
    unfold nodalDensity
    rw [Finset.mul_sum, ← Finset.sum_add_distrib]
    apply Finset.sum_congr rfl
    intro n _
    rw [hg]; ring
  · by_cases c2 : rho.length = p.cells.length
    · rw [h1.2.1 c1 c2] at ha
      rw [h2.2.1 (by omega) (by omega)] at hb
      rw [h3.2.1 (by omega) (by omega), ← Except.ok.inj ha, ← Except.ok.inj hb]
      congr 1
      apply lin
      intro c q
      exact hg _
    · by_cases c3 : rho.length = p.cells.length * p.numQuads
      · rw [h1.2.2.1 c1 c2 c3] at ha
        rw [h2.2.2.1 (by omega) (by omega) (by omega)] at hb
        rw [h3.2.2.1 (by omega) (by omega) (by omega), ← Except.ok.inj ha, ← Except.ok.inj hb]
        congr 1
        apply lin
        intro c q
        exact hg _
      · rw [h1.2.2.2 c1 c2 c3] at ha
        simp at ha

/-- **C86, range (partial).** If the weights are not negative and the density lies in `[0, 1]`, the result lies in
`[0, 1]` for cell and quadrature arrays, and for nodal arrays when the shape functions are not negative at the
quadrature points (linear elements, `C79_values_in_range`). Missing: nodal arrays on quadratic elements
(`C86_tet10_out_of_range`). -/
theorem C86_between_zero_and_one_partial [LinearOrder K] [IsStrictOrderedRing K] (p : VolumeData K)
    (h : VolumeData.WF p) (hJ : ∀ c < p.cells.length, ∀ q < p.numQuads, 0 ≤ weightAt p c q)
    (rho : List K) (h0 : ∀ x ∈ rho, 0 ≤ x) (h1 : ∀ x ∈ rho, x ≤ 1)
    (hN : rho.length = p.numNodes → ∀ q < p.numQuads, ∀ a, 0 ≤ (p.shapeVals.getD q []).getD a 0)
    (r : K) (hr : volumeFn p rho = .ok r) : 0 ≤ r ∧ r ≤ 1 := by
  have g0 : ∀ i, 0 ≤ rho.getD i 0 := by
    intro i
    by_cases hi : i < rho.length
    · rw [List.getD_eq_getElem _ _ hi]; exact h0 _ (List.getElem_mem _)
    · rw [List.getD_eq_default _ _ (by omega)]
  have g1 : ∀ i, rho.getD i 0 ≤ 1 := by
    intro i
    by_cases hi : i < rho.length
    · rw [List.getD_eq_getElem _ _ hi]; exact h1 _ (List.getElem_mem _)
    · rw [List.getD_eq_default _ _ (by omega)]; exact zero_le_one
  have fin : ∀ f : ℕ → ℕ → K, (∀ c < p.cells.length, ∀ q < p.numQuads, 0 ≤ f c q ∧ f c q ≤ 1) →
      0 ≤ meshIntegral p f / meshIntegral p (fun _ _ => 1) ∧ meshIntegral p f / meshIntegral p (fun _ _ => 1) ≤ 1 := by
    intro f hf
    have hV : 0 ≤ meshIntegral p (fun _ _ => 1) := by
      unfold meshIntegral
      apply Finset.sum_nonneg; intro c hc; apply Finset.sum_nonneg; intro q hq
      rw [one_mul]; exact hJ c (by simpa using hc) q (by simpa using hq)
    constructor
    · apply div_nonneg _ hV
      unfold meshIntegral
      apply Finset.sum_nonneg; intro c hc; apply Finset.sum_nonneg; intro q hq
      exact mul_nonneg (hf c (by simpa using hc) q (by simpa using hq)).1 (hJ c (by simpa using hc) q (by simpa using hq))
    · apply div_le_one_of_le₀ _ hV
      unfold meshIntegral
      apply Finset.sum_le_sum; intro c hc; apply Finset.sum_le_sum; intro q hq
      exact mul_le_mul_of_nonneg_right (hf c (by simpa using hc) q (by simpa using hq)).2
        (hJ c (by simpa using hc) q (by simpa using hq))
  have hC := C86_volume_fraction p h rho
  by_cases c1 : rho.length = p.numNodes
  · rw [hC.1 c1] at hr
    rw [← Except.ok.inj hr]
    apply fin
    intro c hc q hq
    have hmem : p.cells.getD c [] ∈ p.cells := by
      rw [List.getD_eq_getElem _ _ hc]; exact List.getElem_mem _
    constructor
    · exact Finset.sum_nonneg (fun a _ => mul_nonneg (hN c1 q hq a) (g0 _))
    · rw [← h.unity _ hmem q hq]
      exact Finset.sum_le_sum (fun a _ => mul_le_of_le_one_right (hN c1 q hq a) (g1 _))
  · by_cases c2 : rho.length = p.cells.length
    · rw [hC.2.1 c1 c2] at hr
      rw [← Except.ok.inj hr]
      exact fin _ (fun c _ q _ => ⟨g0 _, g1 _⟩)
    · by_cases c3 : rho.length = p.cells.length * p.numQuads
      · rw [hC.2.2.1 c1 c2 c3] at hr
        rw [← Except.ok.inj hr]
        exact fin _ (fun c _ q _ => ⟨g0 _, g1 _⟩)
      · rw [hC.2.2.2 c1 c2 c3] at hr
        simp at hr

/-- The data of a mesh of one TET10 cell of volume one with an arbitrary quadrature rule. -/
def oneTet10 (m : ℕ) (pts : ℕ → K × K × K) (w : ℕ → K) : VolumeData K where
  jxw := [(List.range m).map w]
  shapeVals := (List.range m).map (fun q => shapeValuesAt .TET10 (pts q).1 (pts q).2.1 (pts q).2.2)
  cells := [[0, 1, 2, 3, 4, 5, 6, 7, 8, 9]]
  numNodes := 10
  numQuads := m

/-- **C86 (violation).** On a mesh of one TET10 cell, with any quadrature rule that integrates quadratic
functions exactly, the nodal density that is `1` at one vertex and `0` elsewhere has volume fraction `-1/20`: the
result is not "between 0 and 1". -/
theorem C86_tet10_out_of_range [CharZero K] (m : ℕ) (pts : ℕ → K × K × K) (w : ℕ → K)
    (h1 : ∑ q ∈ Finset.range m, w q = 1) (hx : ∑ q ∈ Finset.range m, w q * (pts q).1 = 1 / 4)
    (hxx : ∑ q ∈ Finset.range m, w q * ((pts q).1 * (pts q).1) = 1 / 10) :
    volumeFn (oneTet10 m pts w) [0, 1, 0, 0, 0, 0, 0, 0, 0, 0] = .ok (-1 / 20) := by
  have hwf : VolumeData.WF (oneTet10 m pts w) := by
    refine ⟨rfl, ?_, ?_, ?_⟩
    · intro r hr
      simp only [oneTet10, List.mem_cons, List.not_mem_nil, or_false] at hr
      subst hr
      simp [oneTet10]
    · show ∀ r ∈ [[0, 1, 2, 3, 4, 5, 6, 7, 8, 9]], ∀ x ∈ r, x < 10
      decide
    · intro r hr q hq
      simp only [oneTet10, List.mem_cons, List.not_mem_nil, or_false] at hr hq
      subst hr
      have := moment_one (R := K) .TET10 (pts q).1 (pts q).2.1 (pts q).2.2
      rw [moment_eq_range] at this
      simp only [Nat.cast_one, mul_one] at this
      have e : (oneTet10 m pts w).shapeVals.getD q [] = shapeValuesAt .TET10 (pts q).1 (pts q).2.1 (pts q).2.2 := by
        simp [oneTet10, List.getD_eq_getElem?_getD, hq]
      rw [e]
      exact this
  have hw : ∀ q < m, weightAt (oneTet10 m pts w) 0 q = w q := by
    intro q hq
    simp [weightAt, oneTet10, List.getD_eq_getElem?_getD, hq]
  have hV : meshIntegral (oneTet10 m pts w) (fun _ _ => 1) = 1 := by
    unfold meshIntegral
    refine Eq.trans ?_ h1
    simp only [oneTet10, List.length_singleton, Finset.sum_range_one]
    apply Finset.sum_congr rfl
    intro q hq
    rw [one_mul]
    exact hw q (by simpa using hq)
  have hN : ∀ q < m, nodalDensity (oneTet10 m pts w) [0, 1, 0, 0, 0, 0, 0, 0, 0, 0] 0 q
      = 2 * ((pts q).1 * (pts q).1) - (pts q).1 := by
    intro q hq
    unfold nodalDensity
    have e : (oneTet10 m pts w).shapeVals.getD q [] = shapeValuesAt .TET10 (pts q).1 (pts q).2.1 (pts q).2.2 := by
      simp [oneTet10, List.getD_eq_getElem?_getD, hq]
    rw [e]
    simp [oneTet10, Finset.sum_range_succ, shapeValuesAt, EleType.reOrder, basixValues]
    ring
  rw [volumeFn_node _ hwf _ rfl, hV, div_one]
  congr 1
  have e : meshIntegral (oneTet10 m pts w) (nodalDensity (oneTet10 m pts w) [0, 1, 0, 0, 0, 0, 0, 0, 0, 0])
      = 2 * ∑ q ∈ Finset.range m, w q * ((pts q).1 * (pts q).1) - ∑ q ∈ Finset.range m, w q * (pts q).1 := by
    unfold meshIntegral
    rw [Finset.mul_sum, ← Finset.sum_sub_distrib]
    simp only [oneTet10, List.length_singleton, Finset.sum_range_one]
    apply Finset.sum_congr rfl
    intro q hq
    have h1 := hN q (by simpa using hq)
    have h2 := hw q (by simpa using hq)
    simp only [oneTet10] at h1 h2
    rw [h1, h2]
    ring
  rw [e, hx, hxx]
  norm_num

/-- Two separate triangles of areas `1/2` and `2`, node numbers interleaved, three quadrature points each. -/
def exTwoTri : VolumeData ℚ where
  jxw := [[1 / 6, 1 / 6, 1 / 6], [2 / 3, 2 / 3, 2 / 3]]
  shapeVals := [[2 / 3, 1 / 6, 1 / 6], [1 / 6, 2 / 3, 1 / 6], [1 / 6, 1 / 6, 2 / 3]]
  cells := [[0, 2, 4], [1, 3, 5]]
  numNodes := 6
  numQuads := 3

/-- **C86 (violation).** A density given at the quadrature points is read as nodal values when the mesh happens to
have as many nodes as quadrature points: a design that fills exactly the first of two triangles (a fifth of the
volume) is reported as two fifths. -/
theorem C86_quadrature_array_misread :
    meshIntegral exTwoTri (fun c q => ([1, 1, 1, 0, 0, 0] : List ℚ).getD (c * 3 + q) 0)
        / meshIntegral exTwoTri (fun _ _ => 1) = 1 / 5 ∧
    volumeFn exTwoTri [1, 1, 1, 0, 0, 0] = .ok (2 / 5) := by
  constructor
  · decide +kernel
  · exact congrArg Except.ok (show VolumeData.integrate exTwoTri _ / VolumeData.domain exTwoTri = 2 / 5 by decide +kernel)

/-- The hypotheses hold for the two triangles, with a volume that is not zero. -/
example : VolumeData.WF exTwoTri ∧ meshIntegral exTwoTri (fun _ _ => 1) = 5 / 2 ∧
    (∀ c < exTwoTri.cells.length, ∀ q < exTwoTri.numQuads, 0 ≤ weightAt exTwoTri c q) :=
  ⟨⟨by decide, by decide, by decide, by decide +kernel⟩, by decide +kernel, by decide +kernel⟩

/-- Rules satisfying the hypotheses of `C86_tet10_out_of_range` exist over the rationals: Keast's five points. -/
example : ∑ q ∈ Finset.range 5, ([-4 / 5, 9 / 20, 9 / 20, 9 / 20, 9 / 20] : List ℚ).getD q 0 = 1 ∧
    ∑ q ∈ Finset.range 5, ([-4 / 5, 9 / 20, 9 / 20, 9 / 20, 9 / 20] : List ℚ).getD q 0
      * ([1 / 4, 1 / 2, 1 / 6, 1 / 6, 1 / 6] : List ℚ).getD q 0 = 1 / 4 ∧
    ∑ q ∈ Finset.range 5, ([-4 / 5, 9 / 20, 9 / 20, 9 / 20, 9 / 20] : List ℚ).getD q 0
      * (([1 / 4, 1 / 2, 1 / 6, 1 / 6, 1 / 6] : List ℚ).getD q 0
        * ([1 / 4, 1 / 2, 1 / 6, 1 / 6, 1 / 6] : List ℚ).getD q 0) = 1 / 10 := by
  decide +kernel

end volume

end Verif.Props
