import Verif.Lemmas.Residual
import Mathlib.Tactic.FinCases

/-!
# C01–C05, C61: finite-element assembly

The specification is `Verif.Spec.Assembly` (dense double sums over elements).  The theorems
quantify over every problem (any number of variables, meshes, boundaries), every kernel, every
input, every batch size and every padding item.
-/

namespace Verif.Props

set_option linter.unusedSectionVars false

open Verif.Model

variable {R : Type*} [AddCommMonoid R] {α β : Type*}

/-- Node lists of cell `c`, variable by variable. -/
def cellNodes (p : Problem) (c : ℕ) : List (List ℕ) := p.vars.map (fun v => v.cells.getD c [])

/-- The element contributions of a problem as the specification sees them: every cell with its
volume kernel output, then every boundary face with its surface kernel output. -/
def elements (p : Problem) (kv : α → Local R) (kf : ℕ → β → Local R) (cellsIn : List α)
    (facesIn : List (List β)) : List (Spec.Elem R) :=
  cellsIn.zipIdx.map (fun q =>
    ⟨Spec.elemDofs (fields p.vars) (cellNodes p q.2), (kv q.1).res, (kv q.1).jac⟩) ++
  facesIn.zipIdx.flatMap (fun fb => (fb.1.zip (p.faceCells.getD fb.2 [])).map (fun q =>
    ⟨Spec.elemDofs (fields p.vars) (cellNodes p q.2), (kf fb.2 q.1).res, (kf fb.2 q.1).jac⟩))

section machinery

variable {p : Problem} {kv : α → Local R} {kf : ℕ → β → Local R} {cellsIn : List α}
  {facesIn : List (List β)}

theorem face_elems_map (γ : Type*) (g : Spec.Elem R → γ) (start : ℕ) (fcs : List (List ℕ))
    (facesIn : List (List β))
    (hf : List.Forall₂ (fun (a : List β) (b : List ℕ) => a.length = b.length) facesIn fcs)
    (fc0 : List (List ℕ)) (h0 : fc0.length = start) (mk : ℕ → β → ℕ → Spec.Elem R) :
    ((facesIn.zipIdx start).flatMap (fun fb =>
        (fb.1.zip ((fc0 ++ fcs).getD fb.2 [])).map (fun q => mk fb.2 q.1 q.2))).map g
      = ((facesIn.zip fcs).zipIdx start).flatMap (fun fb =>
        (fb.1.1.zip fb.1.2).map (fun q => g (mk fb.2 q.1 q.2))) := by
  induction hf generalizing start fc0 with
  | nil => simp
  | @cons a b as bs hab hf ih =>
    have := ih (start + 1) (fc0 ++ [b]) (by simp [h0])
    simp only [List.append_assoc, List.singleton_append] at this
    simp only [List.zipIdx_cons, List.zip_cons_cons, List.flatMap_cons, List.map_append, this]
    have e : (fc0 ++ b :: bs).getD start [] = b := by
      rw [← h0]; simp [List.getD_eq_getElem?_getD]
    rw [e]
    simp [List.map_map, Function.comp_def]

theorem elements_dofs (hs : Shapes p kv kf cellsIn facesIn) :
    (elements p kv kf cellsIn facesIn).map (·.dofs) = p.volInds ++ p.faceInds := by
  unfold elements
  rw [List.map_append, List.map_map]
  congr 1
  · unfold Problem.volInds buildInds
    rw [← hs.cells]
    apply List.ext_getElem
    · simp
    · intro i h1 h2
      simp [cellDofs_eq_spec, cellNodes]
  · have := face_elems_map (List ℕ) (·.dofs) 0 p.faceCells facesIn hs.faces [] rfl
      (fun k x c => (⟨Spec.elemDofs (fields p.vars) (cellNodes p c), (kf k x).res, (kf k x).jac⟩ :
        Spec.Elem R))
    simp only [List.nil_append] at this
    rw [this]
    unfold Problem.faceInds
    have hf := hs.faces
    generalize (0 : ℕ) = st
    revert hf st
    generalize p.faceCells = fcs
    clear this hs
    intro hf st
    induction hf generalizing st with
    | nil => rfl
    | @cons a b as bs hab hf ih =>
      simp only [List.zip_cons_cons, List.zipIdx_cons, List.flatMap_cons, List.map_cons,
        List.flatten_cons, ih]
      congr 1
      unfold buildFaceInds
      have : (a.zip b).map (fun q => Spec.elemDofs (fields p.vars) (cellNodes p q.2))
          = ((a.zip b).map Prod.snd).map (cellDofs p.vars) := by
        rw [List.map_map]
        apply List.map_congr_left
        intro q _
        simp [cellDofs_eq_spec, cellNodes]
      rw [this, List.map_snd_zip (by omega)]

theorem elements_vals (g : Local R → List R) (g' : Spec.Elem R → List R)
    (hg : ∀ d l, g' ⟨d, l.res, l.jac⟩ = g l) (hs : Shapes p kv kf cellsIn facesIn) :
    ((elements p kv kf cellsIn facesIn).map g').flatten = valsAll g kv kf cellsIn facesIn := by
  unfold elements valsAll
  rw [List.map_append, List.map_map, List.flatten_append]
  congr 1
  · congr 1
    apply List.ext_getElem
    · simp
    · intro i h1 h2
      simp [hg]
  · have := face_elems_map (List R) g' 0 p.faceCells facesIn hs.faces [] rfl
      (fun k x c => (⟨Spec.elemDofs (fields p.vars) (cellNodes p c), (kf k x).res, (kf k x).jac⟩ :
        Spec.Elem R))
    simp only [List.nil_append] at this
    rw [this]
    have hf := hs.faces
    generalize (0 : ℕ) = st
    revert hf st
    generalize p.faceCells = fcs
    clear this hs
    intro hf st
    induction hf generalizing st with
    | nil => rfl
    | @cons a b as bs hab hf ih =>
      simp only [List.zip_cons_cons, List.zipIdx_cons, List.flatMap_cons, List.map_cons,
        List.flatten_cons, List.flatten_append, ih]
      congr 1
      have : (a.zip b).map (fun q => g' ⟨Spec.elemDofs (fields p.vars) (cellNodes p q.2),
            (kf st q.1).res, (kf st q.1).jac⟩)
          = ((a.zip b).map Prod.fst).map (fun x => g (kf st x)) := by
        rw [List.map_map]
        apply List.map_congr_left
        intro q _
        simp [hg]
      rw [this, List.map_fst_zip (by omega)]

theorem elements_mem_dofs_length (h : p.WF) (hs : Shapes p kv kf cellsIn facesIn) :
    ∀ e ∈ elements p kv kf cellsIn facesIn, e.dofs.length = p.ndof := by
  intro e he
  have : e.dofs ∈ p.volInds ++ p.faceInds := by
    rw [← elements_dofs hs]; exact List.mem_map.mpr ⟨e, he, rfl⟩
  rcases List.mem_append.mp this with hm | hm
  · exact h.volInds_length _ hm
  · exact h.faceInds_length _ hm

theorem elements_mem_vals (hs : Shapes p kv kf cellsIn facesIn) :
    ∀ e ∈ elements p kv kf cellsIn facesIn,
      e.jac.length = p.ndof * p.ndof ∧ e.res.length = p.ndof := by
  intro e he
  simp only [elements, List.mem_append, List.mem_map, List.mem_flatMap] at he
  rcases he with ⟨q, _, rfl⟩ | ⟨fb, _, q, _, rfl⟩
  · exact ⟨hs.volJac _, hs.volRes _⟩
  · exact ⟨hs.faceJac _ _, hs.faceRes _ _⟩

end machinery

variable (p : Problem) (kv : α → Local R) (kf : ℕ → β → Local R) (zv : α) (zf : β)
  (cellsIn : List α) (facesIn : List (List β)) (batch : ℕ)

/-- **C01** (production route). The matrix returned by `get_jacobian` has, at every entry `(i, j)`
kept by the matrix view, exactly the sum of all element values mapped to `(i, j)`, and zero at
entries the view drops. -/
theorem C01_jacobian_is_dense_sum (h : p.WF) (hs : Shapes p kv kf cellsIn facesIn)
    (hb : 0 < batch) (i j : ℕ) (hi : i < p.n) (hj : j < p.n) :
    (getJacobian p kv kf zv zf cellsIn facesIn false batch).todense i j
      = if p.view.keep i j then Spec.assembledMat (elements p kv kf cellsIn facesIn) i j else 0 := by
  have hd := getJacobian_data h hs zv zf hb
  have e : getJacobian p kv kf zv zf cellsIn facesIn false batch
      = CSRMatrix.mk (p.u.map (segSumAt (p.keysAll.zip (valsAll (·.jac) kv kf cellsIn facesIn))))
          p.maps.indptr p.maps.indices p.n p.n := by
    rw [← hd]; rfl
  rw [e]
  apply todense_elems h _ _ (elements_dofs hs) (elements_vals (·.jac) (·.jac) (fun _ _ => rfl) hs)
    ?_ hi hj
  intro e he
  rw [elements_mem_dofs_length h hs e he]
  exact (elements_mem_vals hs e he).1

/-- **C01** (reference route): the fully materialised value array followed by one sorted
`segment_sum` gives the same matrix, slot by slot. -/
theorem C01_reference_route_agrees (h : p.WF) (hs : Shapes p kv kf cellsIn facesIn)
    (hb : 0 < batch) :
    getJacobianRef p kv kf zv zf cellsIn facesIn batch
      = getJacobian p kv kf zv zf cellsIn facesIn false batch := by
  have e1 := getJacobian_data h hs zv zf hb
  have e2 := getJacobianRef_data h hs zv zf hb
  have : ∀ A B : CSRMatrix R, A.data = B.data → A.indptr = B.indptr → A.indices = B.indices →
      A.numRows = B.numRows → A.numCols = B.numCols → A = B := by
    rintro ⟨⟩ ⟨⟩ h1 h2 h3 h4 h5; simp_all
  exact this _ _ (e2.trans e1.symm) rfl rfl rfl rfl

/-- **C01** (entries nobody couples are zero). -/
theorem C01_uncoupled_zero (h : p.WF) (hs : Shapes p kv kf cellsIn facesIn)
    (hb : 0 < batch) (i j : ℕ) (hi : i < p.n) (hj : j < p.n)
    (hc : ¬ Spec.Coupled (elements p kv kf cellsIn facesIn) i j) :
    (getJacobian p kv kf zv zf cellsIn facesIn false batch).todense i j = 0 := by
  rw [C01_jacobian_is_dense_sum p kv kf zv zf cellsIn facesIn batch h hs hb i j hi hj]
  split_ifs
  · unfold Spec.assembledMat
    apply List.sum_eq_zero
    intro x hx
    simp only [List.mem_map] at hx
    obtain ⟨e, he, rfl⟩ := hx
    apply Finset.sum_eq_zero
    intro a ha
    apply Finset.sum_eq_zero
    intro b hb'
    rw [if_neg]
    rintro ⟨h1, h2⟩
    apply hc
    refine ⟨e, he, ?_, ?_⟩
    · rw [← h1]; exact getD_mem_of_lt (by simpa using ha)
    · rw [← h2]; exact getD_mem_of_lt (by simpa using hb')
  · rfl

/-- **C01** (dead surface loads): dropping the surface Jacobian when the `_surface_jac_zero` flag is
set changes nothing provided the surface tangents of the faces present really are zero. -/
theorem C01_dead_load_flag_sound (hb : 0 < batch)
    (hz : ∀ q ∈ facesIn.zipIdx, ∀ x ∈ q.1, ∀ y ∈ (kf q.2 x).jac, y = 0) :
    getJacobian p kv kf zv zf cellsIn facesIn true batch
      = getJacobian p kv kf zv zf cellsIn facesIn false batch := by
  have hzero : ∀ fs : List (List (Local R)), fs = computeFace kf zf facesIn batch →
      ∀ y ∈ (fs.map (fun f => (f.map (·.jac)).flatten)).flatten, y = 0 := by
    rintro fs rfl y hy
    rw [computeFace_vals (·.jac) kf zf facesIn hb] at hy
    simp only [List.mem_flatten, List.mem_map] at hy
    obtain ⟨l, ⟨q, hq, rfl⟩, hy⟩ := hy
    simp only [List.mem_flatten, List.mem_map] at hy
    obtain ⟨l, ⟨x, hx, rfl⟩, hy⟩ := hy
    exact hz q hq x hx y hy
  unfold getJacobian
  simp only [if_true, List.isEmpty_nil, Bool.false_eq_true, if_false]
  split_ifs with he
  · rfl
  · congr 2
    set A := volScan (fun a => (kv a).jac) zv cellsIn
      (slotSort p.volSlots (p.ndof * p.ndof) p.maps.nse batch) (p.maps.nse + 1) batch with hA
    have hAl : A.length = p.maps.nse + 1 := volScan_length _ _ _ _ _ _
    have hv := hzero _ rfl
    set V := ((computeFace kf zf facesIn batch).map (fun f => (f.map (·.jac)).flatten)).flatten
    have hg : ∀ y ∈ gather 0 V (argsort p.faceSlots), y = 0 := by
      intro y hy
      simp only [gather, List.mem_map] at hy
      obtain ⟨t, _, rfl⟩ := hy
      rw [List.getD_eq_getElem?_getD]
      by_cases ht : t < V.length
      · simp [ht]; exact hv _ (List.getElem_mem ht)
      · have : V[t]? = none := by simpa using ht
        simp [this]
    apply List.ext_getElem
    · simp [hAl]
    · intro s h1 h2
      have hs' : s < p.maps.nse + 1 := by omega
      have e := vadd_getD A (segmentSum (gather 0 V (argsort p.faceSlots))
        (gather 0 p.faceSlots (argsort p.faceSlots)) (p.maps.nse + 1)) (by simp [hAl]) s
      rw [List.getD_eq_getElem _ _ h2, List.getD_eq_getElem _ _ h1, segmentSum_getD _ _ _ _ hs'] at e
      rw [e]
      have : segSumAt ((gather 0 p.faceSlots (argsort p.faceSlots)).zip
          (gather 0 V (argsort p.faceSlots))) s = 0 := by
        rw [segSumAt_eq_sum]
        apply List.sum_eq_zero
        intro x hx
        simp only [List.mem_map] at hx
        obtain ⟨q, hq, rfl⟩ := hx
        rw [hg _ (List.of_mem_zip hq).2]; simp
      rw [this, add_zero]

/-- **C03** (values): evaluating a kernel in padded fixed-size batches is evaluating it on every
item, for every batch size and whatever the kernel returns on padding. -/
theorem C03_batched_kernel_eq_unbatched {γ : Type*} (f : α → γ) (items : List α) (hb : 0 < batch) :
    scanVmapBatched f zv items batch = items.map f :=
  scanVmapBatched_eq f zv items hb

/-- **C03** (matrix): the assembled matrix does not depend on the batch size nor on the padding. -/
theorem C03_jacobian_batch_independent (h : p.WF) (hs : Shapes p kv kf cellsIn facesIn)
    (batch' : ℕ) (zv' : α) (zf' : β) (hb : 0 < batch) (hb' : 0 < batch') :
    getJacobian p kv kf zv zf cellsIn facesIn false batch
      = getJacobian p kv kf zv' zf' cellsIn facesIn false batch' := by
  have e1 := getJacobian_data h hs zv zf hb
  have e2 := getJacobian_data h hs zv' zf' hb'
  have : ∀ A B : CSRMatrix R, A.data = B.data → A.indptr = B.indptr → A.indices = B.indices →
      A.numRows = B.numRows → A.numCols = B.numCols → A = B := by
    rintro ⟨⟩ ⟨⟩ h1 h2 h3 h4 h5; simp_all
  exact this _ _ (e1.trans e2.symm) rfl rfl rfl rfl

/-- **C03** (residual). -/
theorem C03_residual_batch_independent (h : p.WF) (hs : Shapes p kv kf cellsIn facesIn)
    (batch' : ℕ) (zv' : α) (zf' : β) (hb : 0 < batch) (hb' : 0 < batch') :
    getRes p kv kf zv zf cellsIn facesIn batch = getRes p kv kf zv' zf' cellsIn facesIn batch' := by
  rw [getRes_eq h hs zv zf hb, getRes_eq h hs zv' zf' hb']

/-- **C04**. The residual has one entry per DOF, the sum of all element residual values mapped to
it. -/
theorem C04_residual_is_scatter_add (h : p.WF) (hs : Shapes p kv kf cellsIn facesIn)
    (hb : 0 < batch) :
    getRes p kv kf zv zf cellsIn facesIn batch
      = (List.range p.n).map (Spec.assembledVec (elements p kv kf cellsIn facesIn)) := by
  rw [getRes_eq h hs zv zf hb]
  apply List.map_congr_left
  intro i _
  have hr : ∀ e ∈ elements p kv kf cellsIn facesIn, e.res.length = e.dofs.length := by
    intro e he
    rw [(elements_mem_vals hs e he).2, elements_mem_dofs_length h hs e he]
  rw [← segSumAt_elems_res _ hr, elements_dofs hs,
    elements_vals (·.res) (·.res) (fun _ _ => rfl) hs, List.flatten_append]
  rfl

/-- **C61**. The fused one-pass route returns exactly the separately assembled residual and
Jacobian. -/
theorem C61_fused_eq_separate (h : p.WF) (hs : Shapes p kv kf cellsIn facesIn) (hb : 0 < batch) :
    getResJ p kv kf zv zf cellsIn facesIn batch
      = (getRes p kv kf zv zf cellsIn facesIn batch,
         getJacobian p kv kf zv zf cellsIn facesIn false batch) := by
  rw [Prod.ext_iff]
  exact ⟨(getResJ_res h hs zv zf hb).trans (getRes_eq h hs zv zf hb).symm,
    getResJ_jac zv zf batch⟩

/-- **C04** (routes): the one-shot pre-sorted reduction and the batched scan of the fused route give
the same residual. -/
theorem C04_batched_route_agrees (h : p.WF) (hs : Shapes p kv kf cellsIn facesIn) (hb : 0 < batch) :
    (getResJ p kv kf zv zf cellsIn facesIn batch).1
      = getRes p kv kf zv zf cellsIn facesIn batch := by
  rw [C61_fused_eq_separate p kv kf zv zf cellsIn facesIn batch h hs hb]

/-! ## Concrete cases meeting the hypotheses -/

/-- Two line elements on three nodes, one scalar field, one loaded end. -/
def exP : Problem := ⟨[⟨1, 3, 2, [[0, 1], [1, 2]]⟩], 2, [[1]], .full⟩

/-- A bar kernel with stiffness `a`. -/
def exKv (a : ℤ) : Local ℤ := ⟨[a, -a], [a, -a, -a, a]⟩

/-- An end spring. -/
def exKf (_ : ℕ) (b : ℤ) : Local ℤ := ⟨[0, b], [0, 0, 0, b]⟩

theorem exP_wf : exP.WF := by
  refine ⟨?_, by decide⟩
  intro v hv
  simp only [exP, List.mem_singleton] at hv
  subst hv
  exact ⟨by decide, by decide, by decide⟩

theorem exP_shapes : Shapes exP exKv exKf [2, 3] [[7]] :=
  ⟨rfl, List.Forall₂.cons rfl List.Forall₂.nil, fun _ => rfl, fun _ => rfl, fun _ _ => rfl,
    fun _ _ => rfl⟩

/-- Two fields with different components on a two-cell mesh, two boundaries, upper storage. -/
def exP2 : Problem :=
  ⟨[⟨2, 4, 3, [[0, 1, 2], [1, 3, 2]]⟩, ⟨1, 4, 3, [[0, 1, 2], [1, 3, 2]]⟩], 2, [[1, 0], [0]], .upper⟩

theorem exP2_wf : exP2.WF := by
  refine ⟨?_, by decide⟩
  intro v hv
  simp only [exP2, List.mem_cons, List.not_mem_nil, or_false] at hv
  rcases hv with rfl | rfl <;> exact ⟨by decide, by decide, by decide⟩

theorem exP2_shapes : Shapes exP2 (fun a : ℤ => ⟨List.replicate 9 a, List.replicate 81 a⟩)
    (fun _ b => ⟨List.replicate 9 b, List.replicate 81 b⟩) [2, 3] [[7, 8], [9]] :=
  ⟨rfl, .cons rfl (.cons rfl .nil), fun _ => rfl, fun _ => rfl, fun _ _ => rfl, fun _ _ => rfl⟩

example := C01_jacobian_is_dense_sum exP exKv exKf 0 0 [2, 3] [[7]] 1 exP_wf exP_shapes (by decide)
example := C01_jacobian_is_dense_sum exP2 _ _ 0 0 [2, 3] [[7, 8], [9]] 2 exP2_wf exP2_shapes
  (by decide)
example := C01_reference_route_agrees exP exKv exKf 0 0 [2, 3] [[7]] 1 exP_wf exP_shapes (by decide)
theorem exP_uncoupled : ¬ Spec.Coupled (elements exP exKv exKf [2, 3] [[7]]) 0 2 := by
  rintro ⟨e, he, h1, h2⟩
  simp only [elements, exP, cellNodes, fields, Var.field, Spec.elemDofs, Spec.dofNumber] at he
  fin_cases he <;> revert h1 h2 <;> decide
example := C01_uncoupled_zero exP exKv exKf 0 0 [2, 3] [[7]] 1 exP_wf exP_shapes (by decide) 0 2 (by decide) (by decide)
  exP_uncoupled
example := C01_dead_load_flag_sound exP exKv (fun _ b => ⟨[0, b], [0, 0, 0, 0]⟩) 0 0 [2, 3] [[7]] 1 (by decide) (by simp)
example := C04_batched_route_agrees exP exKv exKf 0 0 [2, 3] [[7]] 1 exP_wf exP_shapes (by decide)
example : ∀ k (x : ℤ), ∀ y ∈ ((fun _ b => ⟨[0, b], [0, 0, 0, 0]⟩ : ℕ → ℤ → Local ℤ) k x).jac, y = 0 := by
  simp
example := C03_batched_kernel_eq_unbatched 0 2 (fun x : ℤ => x * x) [1, 2, 3] (by decide)
example := C03_jacobian_batch_independent exP exKv exKf 0 0 [2, 3] [[7]] 1 exP_wf exP_shapes 2 5 5
  (by decide) (by decide)
example := C03_residual_batch_independent exP exKv exKf 0 0 [2, 3] [[7]] 1 exP_wf exP_shapes 2 5 5
  (by decide) (by decide)
example := C04_residual_is_scatter_add exP exKv exKf 0 0 [2, 3] [[7]] 1 exP_wf exP_shapes (by decide)
example := C61_fused_eq_separate exP exKv exKf 0 0 [2, 3] [[7]] 1 exP_wf exP_shapes (by decide)

/-- The model computes the expected tangent of the two-bar problem. -/
example : (List.range 3).map (fun i => (List.range 3).map
    ((getJacobian exP exKv exKf 0 0 [2, 3] [[7]] false 1).todense i))
    = [[2, -2, 0], [-2, 5, -3], [0, -3, 10]] := by decide

example : getRes exP exKv exKf 0 0 [2, 3] [[7]] 1 = [2, 1, 4] := by decide

end Verif.Props
