import Verif.Lemmas.Solve
import Mathlib.Tactic.LinearCombination
import Mathlib.Tactic.Ring
import Mathlib.Tactic.IntervalCases

/-!
# Properties of the linear solver, the adjoint rules and the initial increment (C16, C17, C20, C60)
-/

set_option linter.unusedSectionVars false

namespace Verif.Props
open Verif.Model
open scoped BigOperators

section
variable {R : Type*} [CommRing R] {α β : Type*}

/-- The kernels of a linear problem: element residual = element matrix times local unknowns plus an
element load, element tangent = element matrix. -/
structure LinearKernels (d : Discretization R α β) (kv0 : α → Local R) (kf0 : ℕ → β → Local R) : Prop where
  vol : ∀ a loc, d.kv (a, loc)
    = ⟨vadd (localMul d.p.ndof (kv0 a).jac loc) (kv0 a).res, (kv0 a).jac⟩
  face : ∀ k b loc, d.kf k (b, loc)
    = ⟨vadd (localMul d.p.ndof (kf0 k b).jac loc) (kf0 k b).res, (kf0 k b).jac⟩

/-- The affine map a linear problem's residual is: global matrix and global load. -/
theorem residual_affine {d : Discretization R α β} (h : DiscOK d) {kv0 : α → Local R}
    {kf0 : ℕ → β → Local R} (hl : LinearKernels d kv0 kf0)
    (hs0 : Shapes d.p kv0 kf0 d.cellsIn d.facesIn) (u : List R) :
    (∀ i j, tangentAt d u i j
      = Spec.assembledMat (elements d.p kv0 kf0 d.cellsIn d.facesIn) i j) ∧
    ∀ i < d.p.n, (d.residualAt u).getD i 0
      = ∑ j ∈ Finset.range d.p.n,
          Spec.assembledMat (elements d.p kv0 kf0 d.cellsIn d.facesIn) i j * u.getD j 0
        + Spec.assembledVec (elements d.p kv0 kf0 d.cellsIn d.facesIn) i := by
  have hel : elementsAt d u = (elements d.p kv0 kf0 d.cellsIn d.facesIn).map (fun e =>
      ⟨e.dofs, vadd (localMul d.p.ndof e.jac (e.dofs.map (fun d => u.getD d 0))) e.res, e.jac⟩) := by
    unfold elementsAt
    rw [← items_elements_gen d.p kv0 kf0 d.cellsIn d.facesIn
      (fun l loc => ⟨vadd (localMul d.p.ndof l.jac loc) l.res, l.jac⟩) hs0 u]
    congr 1
    · funext q; obtain ⟨a, loc⟩ := q; exact hl.vol a loc
    · funext k q; obtain ⟨a, loc⟩ := q; exact hl.face k a loc
  constructor
  · intro i j
    unfold tangentAt
    rw [hel]
    unfold Spec.assembledMat
    rw [List.map_map]
    rfl
  · intro i hi
    unfold Discretization.residualAt
    rw [C04_residual_is_scatter_add d.p _ _ _ _ _ _ _ h.wf (h.shapes u) h.batch,
      List.getD_eq_getElem _ _ (by simpa using hi), List.getElem_map, List.getElem_range]
    rw [← C14_jvp_is_matvec d.p kv0 kf0 d.zv d.zf d.cellsIn d.facesIn d.batch h.wf hs0 h.batch u i hi]
    unfold residualJvp
    rw [C04_residual_is_scatter_add d.p _ _ _ _ _ _ _ h.wf
      (items_shapes d.p _ _ _ _ (localMul d.p.ndof) (fun _ _ => by simp [localMul]) hs0 u) h.batch,
      items_elements d.p kv0 kf0 d.cellsIn d.facesIn (localMul d.p.ndof) hs0 u,
      List.getD_eq_getElem _ _ (by simpa using hi), List.getElem_map, List.getElem_range]
    change Spec.assembledVec (elementsAt d u) i = _
    rw [hel]
    unfold Spec.assembledVec
    rw [List.map_map, List.map_map]
    have hres : ∀ e ∈ elements d.p kv0 kf0 d.cellsIn d.facesIn, e.res.length = d.p.ndof :=
      fun e he => (elements_mem_vals hs0 e he).2
    revert hres
    generalize elements d.p kv0 kf0 d.cellsIn d.facesIn = es
    intro hres
    induction es with
    | nil => simp
    | cons e es ih =>
      rw [List.map_cons, List.sum_cons, List.map_cons, List.sum_cons, List.map_cons, List.sum_cons,
        ih (fun e he => hres e (List.mem_cons_of_mem _ he))]
      have : (∑ a ∈ Finset.range e.dofs.length, if e.dofs.getD a 0 = i then
          (vadd (localMul d.p.ndof e.jac (e.dofs.map (fun d => u.getD d 0))) e.res).getD a 0 else 0)
          = (∑ a ∈ Finset.range e.dofs.length, if e.dofs.getD a 0 = i then
          (localMul d.p.ndof e.jac (e.dofs.map (fun d => u.getD d 0))).getD a 0 else 0)
          + ∑ a ∈ Finset.range e.dofs.length, if e.dofs.getD a 0 = i then e.res.getD a 0 else 0 := by
        rw [← Finset.sum_add_distrib]
        apply Finset.sum_congr rfl
        intro a _
        rw [vadd_getD _ _ (by rw [hres e (by simp)]; simp [localMul])]
        split_ifs <;> simp
      exact (congrArg (· + _) this).trans (add_add_add_comm _ _ _ _)

/-- Core of the linear solve, for an arbitrary guess: boundary values always right, and the interior
residual is the coupling with the boundary jump that symmetric elimination dropped. -/
theorem linear_core {d : Discretization R α β} (h : DiscOK d) {kv0 : α → Local R}
    {kf0 : ℕ → β → Local R} (hl : LinearKernels d kv0 kf0)
    (hs0 : Shapes d.p kv0 kf0 d.cellsIn d.facesIn) (bc : DirichletBC R)
    (hbc : CanonicalBC d.p.n bc) (hused : UsedBC d bc) (backend : Backend R) (direct symmetric : Bool)
    (guess : List R) (hg : guess.length = d.p.n)
    (hview : direct = true → d.p.view = .full ∨ (symmetric = true ∧
      ∀ i < d.p.n, ∀ j < d.p.n, tangentAt d guess i j = tangentAt d guess j i))
    (hsolve : ∀ b x0, Spec.Solves d.p.view d.p.n (d.forwardOp bc direct symmetric guess) b
      (backend (d.forwardOp bc direct symmetric guess) b x0)) :
    (linearStep d backend direct symmetric bc guess).length = d.p.n ∧
    Spec.MeetsBC bc (linearStep d backend direct symmetric bc guess) ∧
    ∀ i < d.p.n, i ∉ bc.rows →
      (d.residualAt (linearStep d backend direct symmetric bc guess)).getD i 0
        = ∑ j ∈ Finset.range d.p.n, (if symmetric = true ∧ j ∈ bc.rows then
            tangentAt d guess i j *
              ((linearStep d backend direct symmetric bc guess).getD j 0 - guess.getD j 0) else 0) := by
  obtain ⟨hlen, hx⟩ := forward_solved h bc hbc hused direct symmetric guess hview _ _
    (hsolve (vneg (d.resBc bc guess)) (createX0 bc guess))
  have hrb := C13_boundary_residual d.p.n bc hbc (d.residualAt guess) guess 1 (residualAt_length h guess)
  set x := backend (d.forwardOp bc direct symmetric guess) (vneg (d.resBc bc guess))
    (createX0 bc guess) with hxdef
  have hstep : linearStep d backend direct symmetric bc guess = vadd guess x := rfl
  rw [hstep]
  have hadd := vadd_getD guess x (by rw [hg, hlen])
  obtain ⟨hK, hr⟩ := residual_affine h hl hs0 guess
  obtain ⟨_, hr'⟩ := residual_affine h hl hs0 (vadd guess x)
  refine ⟨by simp [vadd, hg, hlen], ?_, ?_⟩
  · intro k hk
    have hm := rows_getD_mem bc hk
    have hlt := hbc.lt _ hm
    have := hx _ hlt
    rw [vneg_getD] at this
    simp only [elimEntry, if_pos hm] at this
    rw [Finset.sum_congr rfl (g := fun j => if bc.rows.getD k 0 = j then x.getD j 0 else 0)
      (fun j _ => by split_ifs <;> simp), Finset.sum_ite_eq, if_pos (by simpa using hlt)] at this
    rw [hadd, this]
    unfold Discretization.resBc
    rw [hrb.2.1 k hk]
    ring
  · intro i hi hir
    have := hx i hi
    rw [vneg_getD] at this
    unfold Discretization.resBc at this
    rw [hrb.2.2 i hir] at this
    simp only [elimEntry, if_neg hir] at this
    rw [hr' i hi]
    rw [hr i hi] at this
    have e1 : ∑ j ∈ Finset.range d.p.n,
        Spec.assembledMat (elements d.p kv0 kf0 d.cellsIn d.facesIn) i j * (vadd guess x).getD j 0
        = ∑ j ∈ Finset.range d.p.n,
            Spec.assembledMat (elements d.p kv0 kf0 d.cellsIn d.facesIn) i j * guess.getD j 0
          + ∑ j ∈ Finset.range d.p.n, (if symmetric = true ∧ j ∈ bc.rows then 0
              else tangentAt d guess i j) * x.getD j 0
          + ∑ j ∈ Finset.range d.p.n, (if symmetric = true ∧ j ∈ bc.rows then
            tangentAt d guess i j * ((vadd guess x).getD j 0 - guess.getD j 0) else 0) := by
      rw [← Finset.sum_add_distrib, ← Finset.sum_add_distrib]
      apply Finset.sum_congr rfl
      intro j _
      rw [hadd, hK]
      split_ifs <;> ring
    rw [e1, this]
    ring

/-- **C16**. For a linear problem (any element matrices and loads), a linear solver whose backend
solves the systems it is given, started from any guess with the prescribed boundary values, returns
`u` with the prescribed values at every constrained DOF and zero residual at every other DOF. Direct
(assembled; triangular storage allowed for symmetric tangents) and matrix-free paths, both eliminations.
With row elimination the guess need not meet the boundary values. -/
theorem C16_linear_solve_correct {d : Discretization R α β} (h : DiscOK d) {kv0 : α → Local R}
    {kf0 : ℕ → β → Local R} (hl : LinearKernels d kv0 kf0)
    (hs0 : Shapes d.p kv0 kf0 d.cellsIn d.facesIn) (bc : DirichletBC R)
    (hbc : CanonicalBC d.p.n bc) (hused : UsedBC d bc) (backend : Backend R) (direct symmetric : Bool)
    (guess : List R) (hg : guess.length = d.p.n) (hguess : symmetric = true → Spec.MeetsBC bc guess)
    (hview : direct = true → d.p.view = .full ∨ (symmetric = true ∧
      ∀ i < d.p.n, ∀ j < d.p.n, tangentAt d guess i j = tangentAt d guess j i))
    (hsolve : ∀ b x0, Spec.Solves d.p.view d.p.n (d.forwardOp bc direct symmetric guess) b
      (backend (d.forwardOp bc direct symmetric guess) b x0)) :
    (linearStep d backend direct symmetric bc guess).length = d.p.n ∧
    Spec.MeetsBC bc (linearStep d backend direct symmetric bc guess) ∧
    ∀ i < d.p.n, i ∉ bc.rows →
      (d.residualAt (linearStep d backend direct symmetric bc guess)).getD i 0 = 0 := by
  obtain ⟨h1, h2, h3⟩ := linear_core h hl hs0 bc hbc hused backend direct symmetric guess hg hview hsolve
  refine ⟨h1, h2, fun i hi hir => ?_⟩
  rw [h3 i hi hir]
  apply Finset.sum_eq_zero
  intro j _
  split_ifs with hc
  · obtain ⟨k, hk, rfl⟩ := mem_rows_getD hbc hc.2
    rw [h2 k hk, hguess hc.1 k hk, sub_self, mul_zero]
  · rfl

theorem zeroLikeGuess_spec (n : ℕ) (bc : DirichletBC R) (hbc : CanonicalBC n bc) :
    (zeroLikeGuess n bc).length = n ∧ Spec.MeetsBC bc (zeroLikeGuess n bc) ∧
    ∀ i, i ∉ bc.rows → (zeroLikeGuess n bc).getD i 0 = 0 := by
  unfold zeroLikeGuess
  refine ⟨by simp [scatterSet_length], ?_, ?_⟩
  · intro k hk
    exact scatterSet_getD_nodup 0 _ _ _ (hbc.sorted.imp (fun h => Nat.ne_of_lt h)) k hk
      (by rw [hbc.vals]; exact hk) (by
        rw [List.length_replicate]; exact hbc.lt _ (rows_getD_mem bc hk))
  · intro i hi
    rw [scatterSet_getD_not_mem _ _ _ _ _ hi]
    simp [List.getD_eq_getElem?_getD, List.getElem?_replicate]
    split <;> simp_all

/-- **C16** (default call): with no guess and no override the solver starts from the boundary values,
so the previous theorem applies without a hypothesis on the guess. -/
theorem C16_default_call {d : Discretization R α β} (h : DiscOK d) {kv0 : α → Local R}
    {kf0 : ℕ → β → Local R} (hl : LinearKernels d kv0 kf0)
    (hs0 : Shapes d.p kv0 kf0 d.cellsIn d.facesIn) (bc : DirichletBC R)
    (hbc : CanonicalBC d.p.n bc) (hused : UsedBC d bc) (backend : Backend R) (direct symmetric : Bool)
    (hview : direct = true → d.p.view = .full ∨ (symmetric = true ∧
      ∀ i < d.p.n, ∀ j < d.p.n, tangentAt d (zeroLikeGuess d.p.n bc) i j
        = tangentAt d (zeroLikeGuess d.p.n bc) j i))
    (hsolve : ∀ b x0, Spec.Solves d.p.view d.p.n (d.forwardOp bc direct symmetric (zeroLikeGuess d.p.n bc)) b
      (backend (d.forwardOp bc direct symmetric (zeroLikeGuess d.p.n bc)) b x0)) :
    Spec.MeetsBC bc (linearSolver d backend direct symmetric bc none none) ∧
    ∀ i < d.p.n, i ∉ bc.rows →
      (d.residualAt (linearSolver d backend direct symmetric bc none none)).getD i 0 = 0 := by
  have hz := zeroLikeGuess_spec d.p.n bc hbc
  exact (C16_linear_solve_correct h hl hs0 bc hbc hused backend direct symmetric _ hz.1
    (fun _ => hz.2.1) hview hsolve).2

/-- **C17** (what holds). Overriding the boundary values at call time with the default guess: the
constrained DOFs get the new values; the interior residual is exactly the coupling of the interior with
the change of the boundary values, which symmetric elimination dropped; with row elimination the new
problem is solved. Missing: interior equations under symmetric elimination (false, see below). -/
theorem C17_override_partial {d : Discretization R α β} (h : DiscOK d) {kv0 : α → Local R}
    {kf0 : ℕ → β → Local R} (hl : LinearKernels d kv0 kf0)
    (hs0 : Shapes d.p kv0 kf0 d.cellsIn d.facesIn) (bc : DirichletBC R)
    (hbc : CanonicalBC d.p.n bc) (hused : UsedBC d bc) (backend : Backend R) (direct symmetric : Bool)
    (newVals : List R) (hnew : newVals.length = bc.rows.length)
    (hview : direct = true → d.p.view = .full ∨ (symmetric = true ∧
      ∀ i < d.p.n, ∀ j < d.p.n, tangentAt d (zeroLikeGuess d.p.n bc) i j
        = tangentAt d (zeroLikeGuess d.p.n bc) j i))
    (hsolve : ∀ b x0, Spec.Solves d.p.view d.p.n
      (d.forwardOp (bc.replaceVals newVals) direct symmetric (zeroLikeGuess d.p.n bc)) b
      (backend (d.forwardOp (bc.replaceVals newVals) direct symmetric (zeroLikeGuess d.p.n bc)) b x0)) :
    let u := linearSolver d backend direct symmetric bc none (some (bc.replaceVals newVals))
    (∀ k < bc.rows.length, u.getD (bc.rows.getD k 0) 0 = newVals.getD k 0) ∧
    (symmetric = false → ∀ i < d.p.n, i ∉ bc.rows → (d.residualAt u).getD i 0 = 0) ∧
    (symmetric = true → ∀ i < d.p.n, i ∉ bc.rows → (d.residualAt u).getD i 0
      = ∑ k ∈ Finset.range bc.rows.length,
          tangentAt d (zeroLikeGuess d.p.n bc) i (bc.rows.getD k 0)
            * (newVals.getD k 0 - bc.vals.getD k 0)) := by
  have hz := zeroLikeGuess_spec d.p.n bc hbc
  have hc : CanonicalBC d.p.n (bc.replaceVals newVals) :=
    ⟨hbc.sorted, hbc.lt, hbc.maskLength, hbc.mask, hnew, hbc.total⟩
  obtain ⟨h1, h2, h3⟩ := linear_core h hl hs0 (bc.replaceVals newVals) hc hused backend direct symmetric
    _ hz.1 hview hsolve
  refine ⟨h2, ?_, ?_⟩
  · rintro rfl i hi hir
    exact (h3 i hi hir).trans (by simp)
  · rintro rfl i hi hir
    refine (h3 i hi hir).trans ?_
    have hnd : bc.rows.Nodup := hbc.sorted.imp (fun h => Nat.ne_of_lt h)
    rw [← Finset.sum_filter]
    symm
    refine Finset.sum_bij (fun k _ => bc.rows.getD k 0) ?_ ?_ ?_ ?_
    · intro k hk
      have hk' : k < bc.rows.length := by simpa using hk
      have hm := rows_getD_mem bc hk'
      exact Finset.mem_filter.mpr ⟨Finset.mem_range.mpr (hbc.lt _ hm), rfl, hm⟩
    · intro a ha b hb e
      have ha' : a < bc.rows.length := by simpa using ha
      have hb' : b < bc.rows.length := by simpa using hb
      rw [List.getD_eq_getElem _ _ ha', List.getD_eq_getElem _ _ hb'] at e
      exact (List.Nodup.getElem_inj_iff hnd).mp e
    · intro j hj
      obtain ⟨k, hk, e⟩ := mem_rows_getD hc (Finset.mem_filter.mp hj).2.2
      exact ⟨k, Finset.mem_range.mpr hk, e⟩
    · intro k hk
      have hk' : k < bc.rows.length := by simpa using hk
      have e1 := h2 k hk'
      have e2 := hz.2.1 k hk'
      rw [show (bc.replaceVals newVals).rows = bc.rows from rfl] at e1
      rw [e1, e2]
      rfl

/-- **C60**. The initial increment equals (prescribed value - current value) at constrained DOFs and
zero elsewhere; so it satisfies every constrained row of the linear system `J x = -res`. -/
theorem C60_x0_satisfies_bc_rows (n : ℕ) (bc : DirichletBC R) (hbc : CanonicalBC n bc) (sol res : List R)
    (hsol : sol.length = n) (hres : res.length = n) (K : ℕ → ℕ → R) (symmetric : Bool) :
    (createX0 bc sol).length = n ∧
    (∀ k < bc.rows.length, (createX0 bc sol).getD (bc.rows.getD k 0) 0
      = bc.vals.getD k 0 - sol.getD (bc.rows.getD k 0) 0) ∧
    (∀ i, i ∉ bc.rows → (createX0 bc sol).getD i 0 = 0) ∧
    ∀ i ∈ bc.rows, ∑ j ∈ Finset.range n, elimEntry bc.rows symmetric K i j * (createX0 bc sol).getD j 0
      = -((applyBcRes bc res sol 1).getD i 0) := by
  have hnd : bc.rows.Nodup := hbc.sorted.imp (fun h => Nat.ne_of_lt h)
  have hlen : (createX0 bc sol).length = n := by simp [createX0, scatterSet_length, hsol]
  have hget : ∀ i < n, (createX0 bc sol).getD i 0
      = (scatterSet (List.replicate sol.length (0 : R)) bc.rows bc.vals).getD i 0
        - (scatterSet (List.replicate sol.length (0 : R)) bc.rows (gather 0 sol bc.rows)).getD i 0 := by
    intro i hi
    unfold createX0
    rw [List.getD_eq_getElem _ _ (by simp [scatterSet_length, hsol, hi]), List.getElem_zipWith,
      List.getD_eq_getElem _ _ (by simp [scatterSet_length, hsol, hi]),
      List.getD_eq_getElem _ _ (by simp [scatterSet_length, hsol, hi])]
  have hrows : ∀ k < bc.rows.length, (createX0 bc sol).getD (bc.rows.getD k 0) 0
      = bc.vals.getD k 0 - sol.getD (bc.rows.getD k 0) 0 := by
    intro k hk
    have hlt := hbc.lt _ (rows_getD_mem bc hk)
    rw [hget _ hlt, scatterSet_getD_nodup 0 _ _ _ hnd k hk (by rw [hbc.vals]; exact hk)
      (by simpa [hsol] using hlt), scatterSet_getD_nodup 0 _ _ _ hnd k hk (by simpa [gather] using hk)
      (by simpa [hsol] using hlt)]
    congr 1
    unfold gather
    rw [List.getD_eq_getElem _ _ (by simpa using hk), List.getElem_map, List.getD_eq_getElem bc.rows _ hk]
  refine ⟨hlen, hrows, ?_, ?_⟩
  · intro i hi
    by_cases hin : i < n
    · rw [hget i hin, scatterSet_getD_not_mem _ _ _ _ _ hi, scatterSet_getD_not_mem _ _ _ _ _ hi, sub_self]
    · rw [List.getD_eq_default _ _ (by omega)]
  · intro i hi
    have hlt := hbc.lt _ hi
    obtain ⟨k, hk, rfl⟩ := mem_rows_getD hbc hi
    simp only [elimEntry, if_pos hi]
    rw [Finset.sum_congr rfl (g := fun j => if bc.rows.getD k 0 = j then (createX0 bc sol).getD j 0 else 0)
      (fun j _ => by split_ifs <;> simp), Finset.sum_ite_eq, if_pos (by simpa using hlt), hrows k hk,
      (C13_boundary_residual n bc hbc res sol 1 hres).2.1 k hk]
    ring

/-! ## C20: adjoints -/

theorem jacobianAt_hasPattern {d : Discretization R α β} (h : DiscOK d) (sol : List R) :
    HasPattern d.p (d.jacobianAt sol) :=
  getJacobian_hasPattern d.p d.kv d.kf _ _ _ _ d.batch h.wf (h.shapes sol) h.batch

theorem applyBcJ_length (bc : DirichletBC R) (hbc : CanonicalBC n bc) (m : CsrMaps) (data : List R)
    (symmetric : Bool) (h1 : m.rowOfSlot.length = data.length) (h2 : m.indices.length = data.length) :
    (applyBcJ bc m data symmetric).length = data.length := by
  unfold applyBcJ
  have hfold : ∀ (l : List ℤ) (a : List R), (l.foldl (fun acc s => setAtInt acc s 1) a).length = a.length := by
    intro l
    induction l with
    | nil => intro a; rfl
    | cons s l ih =>
      intro a
      rw [List.foldl_cons, ih]
      simp only [setAtInt]
      split_ifs <;> simp
  rw [hfold]
  cases symmetric <;> simp [gather, h1, h2]

/-- The transposed eliminated matrix of the direct adjoint. -/
theorem transposed_todense {d : Discretization R α β} (h : DiscOK d) (bc : DirichletBC R)
    (hbc : CanonicalBC d.p.n bc) (symmetric : Bool) (sol : List R) (i j : ℕ) (hi : i < d.p.n)
    (hj : j < d.p.n) :
    ((d.jacBcAt bc symmetric sol).transposeWithMaps d.p.maps.tPerm d.p.maps.tIndptr
      d.p.maps.tIndices).todense i j = (d.jacBcAt bc symmetric sol).todense j i := by
  have hJ := jacobianAt_hasPattern h sol
  have e : d.jacBcAt bc symmetric sol
      = CSRMatrix.mk (applyBcJ bc d.p.maps (d.jacobianAt sol).data symmetric) d.p.maps.indptr
        d.p.maps.indices d.p.n d.p.n := by
    unfold Discretization.jacBcAt jacBc CSRMatrix.withData
    rw [hJ.indptr, hJ.indices, hJ.rows, hJ.cols]
  rw [e]
  refine (C07_transpose_maps d.p h.wf _ ?_).2 i j hi hj
  rw [applyBcJ_length bc hbc, hJ.data]
  · rw [hJ.data, d.p.maps_nse]
    have := Problem.maps_rowOfSlot d.p
    rw [this, List.length_map]
  · rw [hJ.data, d.p.maps_nse, d.p.maps_indices, List.length_map]

theorem matfreeKt_getD {d : Discretization R α β} (h : DiscOK d) (sol w : List R) (j : ℕ)
    (hj : j < d.p.n) :
    (d.matfreeKt sol w).getD j 0 = ∑ i ∈ Finset.range d.p.n, tangentAt d sol i j * w.getD i 0 :=
  C14_vjp_is_rmatvec d.p d.kv d.kf _ _ _ _ d.batch h.wf (h.shapes sol) h.batch w j hj

theorem matfreeKt_length {d : Discretization R α β} (h : DiscOK d) (sol w : List R) :
    (d.matfreeKt sol w).length = d.p.n := by
  unfold Discretization.matfreeKt residualVjp
  rw [C04_residual_is_scatter_add d.p _ _ _ _ _ _ _ h.wf
    (items_shapes d.p _ _ _ _ (localMulT d.p.ndof) (fun _ _ => by simp [localMulT]) (h.shapes sol) w)
    h.batch]
  simp

theorem jacobianAt_rmatvec {d : Discretization R α β} (h : DiscOK d) (hview : d.p.view = .full)
    (sol w : List R) (j : ℕ) (hj : j < d.p.n) :
    ((d.jacobianAt sol).rmatvec w).getD j 0
      = ∑ i ∈ Finset.range d.p.n, tangentAt d sol i j * w.getD i 0 := by
  have hJ := jacobianAt_hasPattern h sol
  have hwf : WellFormed (d.jacobianAt sol) :=
    ⟨by rw [hJ.indptr, hJ.indices, hJ.rows, hJ.cols]; exact C02_pattern_canonical d.p h.wf,
      by rw [hJ.data, hJ.indices, d.p.maps_nse, d.p.maps_indices, List.length_map]⟩
  rw [C06_rmatvec _ hwf w j (by rw [hJ.cols]; exact hj), hJ.rows]
  apply Finset.sum_congr rfl
  intro i hi
  have := C01_jacobian_is_dense_sum d.p d.kv d.kf (d.zv, []) (d.zf, []) (cellItems d.p d.cellsIn sol)
    (faceItems d.p d.facesIn sol) d.batch h.wf (h.shapes sol) h.batch i j (by simpa using hi) hj
  rw [hview] at this
  simp only [MatrixView.keep, if_true] at this
  unfold Discretization.jacobianAt
  rw [this]
  rfl

theorem elimEntry_symm (rows : List ℕ) (K : ℕ → ℕ → R) (i j : ℕ) (hK : K i j = K j i) :
    elimEntry rows true K i j = elimEntry rows true K j i := by
  unfold elimEntry
  by_cases h1 : i ∈ rows <;> by_cases h2 : j ∈ rows <;> simp [h1, h2, eq_comm, hK]
  · rintro rfl; exact absurd h1 h2
  · rintro rfl; exact absurd h2 h1

/-- What a backend that solved the adjoint system guarantees. -/
theorem adjoint_solved {d : Discretization R α β} (h : DiscOK d) (bc : DirichletBC R)
    (hbc : CanonicalBC d.p.n bc) (hused : UsedBC d bc) (direct symmetric : Bool) (sol : List R)
    (hd : direct = true → d.p.view = .full ∨ (symmetric = true ∧
      ∀ i < d.p.n, ∀ j < d.p.n, tangentAt d sol i j = tangentAt d sol j i))
    (hk : direct = false → symmetric = true →
      ∀ i < d.p.n, ∀ j < d.p.n, tangentAt d sol i j = tangentAt d sol j i)
    (v x : List R) (hsol : Spec.Solves d.p.view d.p.n (d.adjointOp bc direct symmetric sol) v x) :
    x.length = d.p.n ∧ ∀ j < d.p.n,
      ∑ i ∈ Finset.range d.p.n, elimEntry bc.rows symmetric (tangentAt d sol) i j * x.getD i 0
        = v.getD j 0 := by
  unfold Discretization.adjointOp at hsol
  cases direct with
  | true =>
    rw [if_pos rfl] at hsol
    have tri : d.p.view ≠ .full → Spec.Solves d.p.view d.p.n (.csr (d.jacBcAt bc symmetric sol)) v x →
        x.length = d.p.n ∧ ∀ j < d.p.n,
          ∑ i ∈ Finset.range d.p.n, elimEntry bc.rows symmetric (tangentAt d sol) i j * x.getD i 0
          = v.getD j 0 := by
      intro hne hs
      obtain ⟨rfl, hsym⟩ := (hd rfl).resolve_left hne
      refine ⟨hs.1, fun j hj => ?_⟩
      rw [← hs.2 j hj]
      apply Finset.sum_congr rfl
      intro i hi
      have hi' : i < d.p.n := by simpa using hi
      rw [completed_jacBcAt h bc hbc hused true sol (hd rfl) j i hj hi',
        elimEntry_symm _ _ i j (hsym i hi' j hj)]
    cases hv : d.p.view with
    | full =>
      simp only [hv] at hsol
      refine ⟨hsol.1, fun j hj => ?_⟩
      rw [← hsol.2 j hj]
      apply Finset.sum_congr rfl
      intro i hi
      have hi' : i < d.p.n := by simpa using hi
      rw [← completed_jacBcAt h bc hbc hused symmetric sol (hd rfl) i j hi' hj, hv]
      simp only [Spec.completed]
      rw [transposed_todense h bc hbc symmetric sol j i hj hi']
    | upper =>
      simp only [hv] at hsol
      exact tri (by simp [hv]) (by rw [hv]; exact hsol)
    | lower =>
      simp only [hv] at hsol
      exact tri (by simp [hv]) (by rw [hv]; exact hsol)
  | false =>
    rw [if_neg (by simp)] at hsol
    cases symmetric with
    | true =>
      rw [if_pos rfl] at hsol
      refine ⟨hsol.1, fun j hj => ?_⟩
      have := forward_solved h bc hbc hused false true sol (by simp) v x hsol
      rw [← this.2 j hj]
      apply Finset.sum_congr rfl
      intro i hi
      have hi' : i < d.p.n := by simpa using hi
      rw [elimEntry_symm _ _ i j (hk rfl rfl i hi' j hj)]
    | false =>
      rw [if_neg (by simp)] at hsol
      refine ⟨hsol.1, fun j hj => ?_⟩
      rw [← hsol.2 j hj]
      have hxl := hsol.1
      have hmask : ∀ i < d.p.n, ∀ (f : Bool → R → R),
          (List.zipWith f bc.mask x).getD i 0 = f (decide (i ∈ bc.rows)) (x.getD i 0) := by
        intro i hi f
        have hml : i < bc.mask.length := by rw [hbc.maskLength]; exact hi
        have hm := hbc.mask i hi
        rw [List.getD_eq_getElem _ _ hml] at hm
        rw [List.getD_eq_getElem _ _ (by simp [hml, hxl, hi]), List.getElem_zipWith,
          List.getD_eq_getElem x _ (by omega)]
        congr 1
        rw [Bool.eq_iff_iff, hm]
        simp
      rw [vadd_getD _ _ (by rw [matfreeKt_length h]; simp [hbc.maskLength, hxl]),
        matfreeKt_getD h sol _ j hj, hmask j hj]
      have hwb : (if decide (j ∈ bc.rows) = true then x.getD j 0 else 0)
          = ∑ i ∈ Finset.range d.p.n, if i = j then (if j ∈ bc.rows then x.getD j 0 else 0) else 0 := by
        rw [Finset.sum_ite_eq', if_pos (Finset.mem_range.mpr hj)]
        simp
      rw [hwb, ← Finset.sum_add_distrib]
      apply Finset.sum_congr rfl
      intro i hi
      rw [hmask i (by simpa using hi)]
      unfold elimEntry
      by_cases h1 : i ∈ bc.rows
      · by_cases h2 : i = j
        · subst h2; simp [h1]
        · simp [h1, h2]
      · by_cases h2 : i = j
        · subst h2; simp [h1]
        · simp [h1, h2]

/-- What the reverse rule returns, whatever the backend returned: if the backend's answer solves the system for
the right-hand side `b`, the result solves the transposed boundary-modified system for `b`, and for `v` itself at
constrained DOFs under symmetric elimination. -/
theorem newtonAdjoint_rows {d : Discretization R α β} (h : DiscOK d)
    (bc : DirichletBC R) (hbc : CanonicalBC d.p.n bc) (hused : UsedBC d bc) (backend : Backend R)
    (direct symmetric : Bool) (sol v b : List R)
    (hd : direct = true → d.p.view = .full)
    (hk : direct = false → symmetric = true →
      ∀ i < d.p.n, ∀ j < d.p.n, tangentAt d sol i j = tangentAt d sol j i)
    (hsolve : Spec.Solves d.p.view d.p.n (d.adjointOp bc direct symmetric sol) b
      (backend (d.adjointOp bc direct symmetric sol) v (adjointX0 bc v))) :
    (newtonAdjoint d backend direct symmetric bc sol v).length = d.p.n ∧
    ∀ j < d.p.n, ∑ i ∈ Finset.range d.p.n, Spec.rowEliminated bc.rows (tangentAt d sol) i j
      * (newtonAdjoint d backend direct symmetric bc sol v).getD i 0 =
        if symmetric = true ∧ j ∈ bc.rows then v.getD j 0 else b.getD j 0 := by
  obtain ⟨hlen, hx⟩ := adjoint_solved h bc hbc hused direct symmetric sol (fun e => Or.inl (hd e)) hk b _ hsolve
  unfold newtonAdjoint
  simp only
  set x := backend (d.adjointOp bc direct symmetric sol) v (adjointX0 bc v) with hxd
  have hnd : bc.rows.Nodup := hbc.sorted.imp (fun h => Nat.ne_of_lt h)
  cases symmetric with
  | false =>
    rw [if_neg (by simp)]
    refine ⟨hlen, fun j hj => ?_⟩
    rw [if_neg (by simp), ← hx j hj]
    apply Finset.sum_congr rfl
    intro i _
    simp [Spec.rowEliminated, elimEntry]
  | true =>
    rw [if_pos rfl]
    set lf := scatterSet x bc.rows (List.replicate bc.rows.length 0) with hlf
    have hlfget : ∀ i < d.p.n, lf.getD i 0 = if i ∈ bc.rows then 0 else x.getD i 0 := by
      intro i hi
      have := scatterSet_const (0 : R) 0 x bc.rows i (by omega)
      rw [hlf]
      rw [show List.replicate bc.rows.length (0 : R) = bc.rows.map (fun _ => 0) by simp]
      exact this
    set ktw := if direct = true then (d.jacobianAt sol).rmatvec lf else d.matfreeKt sol lf with hktw
    have hkget : ∀ j < d.p.n, ktw.getD j 0
        = ∑ i ∈ Finset.range d.p.n, tangentAt d sol i j * (if i ∈ bc.rows then 0 else x.getD i 0) := by
      intro j hj
      have e : ktw.getD j 0 = ∑ i ∈ Finset.range d.p.n, tangentAt d sol i j * lf.getD i 0 := by
        rw [hktw]
        cases direct with
        | true => rw [if_pos rfl, jacobianAt_rmatvec h (hd rfl) sol lf j hj]
        | false => rw [if_neg (by simp), matfreeKt_getD h sol lf j hj]
      rw [e]
      apply Finset.sum_congr rfl
      intro i hi
      rw [hlfget i (by simpa using hi)]
    set lam := scatterSet x bc.rows (List.zipWith (· - ·) (gather 0 v bc.rows) (gather 0 ktw bc.rows))
      with hlam
    have hlamfree : ∀ i, i ∉ bc.rows → lam.getD i 0 = x.getD i 0 :=
      fun i hi => scatterSet_getD_not_mem _ _ _ _ _ hi
    have hlambc : ∀ j ∈ bc.rows, lam.getD j 0 = v.getD j 0
        - ∑ i ∈ Finset.range d.p.n, tangentAt d sol i j * (if i ∈ bc.rows then 0 else x.getD i 0) := by
      intro j hj
      have hlt := hbc.lt j hj
      obtain ⟨k, hkk, e⟩ := mem_rows_getD hbc hj
      rw [← hkget j hlt]
      have := scatterSet_getD_nodup 0 x bc.rows
        (List.zipWith (· - ·) (gather 0 v bc.rows) (gather 0 ktw bc.rows)) hnd k hkk
        (by simp [gather, hkk]) (by rw [e]; omega)
      rw [e] at this
      rw [hlam, this, List.getD_eq_getElem _ _ (by simp [gather, hkk]), List.getElem_zipWith]
      simp only [gather, List.getElem_map]
      rw [List.getD_eq_getElem _ _ hkk] at e
      rw [e]
    refine ⟨by rw [hlam, scatterSet_length, hlen], fun j hj => ?_⟩
    have hsplit : ∀ i ∈ Finset.range d.p.n, Spec.rowEliminated bc.rows (tangentAt d sol) i j * lam.getD i 0
        = (if i = j then (if j ∈ bc.rows then lam.getD j 0 else 0) else 0)
          + tangentAt d sol i j * (if i ∈ bc.rows then 0 else x.getD i 0) := by
      intro i _
      unfold Spec.rowEliminated
      by_cases h1 : i ∈ bc.rows
      · by_cases h2 : i = j
        · subst h2; simp [h1]
        · simp [h1, h2]
      · rw [hlamfree i h1]
        by_cases h2 : i = j
        · subst h2; simp [h1]
        · simp [h1, h2]
    rw [Finset.sum_congr rfl hsplit, Finset.sum_add_distrib, Finset.sum_ite_eq',
      if_pos (by simpa using hj)]
    by_cases hjr : j ∈ bc.rows
    · rw [if_pos hjr, if_pos ⟨rfl, hjr⟩, hlambc j hjr]
      ring
    · rw [if_neg hjr, if_neg (fun e => hjr e.2), zero_add, ← hx j hj]
      apply Finset.sum_congr rfl
      intro i _
      unfold elimEntry
      by_cases h1 : i ∈ bc.rows
      · rw [if_pos h1, if_pos h1, if_neg (fun e : i = j => hjr (e ▸ h1))]; simp
      · rw [if_neg h1, if_neg h1, if_neg (by simp [hjr])]

/-- **C20**. The vector the Newton solver's reverse rule computes solves the transposed system of the
boundary-modified residual (identity rows at constrained DOFs, columns kept), for both eliminations and
both operator kinds, although under symmetric elimination the system handed to the backend is another
one. Full storage for the direct path; for the matrix-free symmetric path the tangent must be symmetric
(that path uses the forward product). -/
theorem C20_newton_adjoint_is_true_adjoint_partial {d : Discretization R α β} (h : DiscOK d)
    (bc : DirichletBC R) (hbc : CanonicalBC d.p.n bc) (hused : UsedBC d bc) (backend : Backend R)
    (direct symmetric : Bool) (sol v : List R)
    (hd : direct = true → d.p.view = .full)
    (hk : direct = false → symmetric = true →
      ∀ i < d.p.n, ∀ j < d.p.n, tangentAt d sol i j = tangentAt d sol j i)
    (hsolve : ∀ b x0, Spec.Solves d.p.view d.p.n (d.adjointOp bc direct symmetric sol) b
      (backend (d.adjointOp bc direct symmetric sol) b x0)) :
    (newtonAdjoint d backend direct symmetric bc sol v).length = d.p.n ∧
    ∀ j < d.p.n, ∑ i ∈ Finset.range d.p.n, Spec.rowEliminated bc.rows (tangentAt d sol) i j
      * (newtonAdjoint d backend direct symmetric bc sol v).getD i 0 = v.getD j 0 := by
  obtain ⟨h1, h2⟩ := newtonAdjoint_rows h bc hbc hused backend direct symmetric sol v v hd hk (hsolve v (adjointX0 bc v))
  exact ⟨h1, fun j hj => by rw [h2 j hj, ite_self]⟩

/-- **C20** (meaning). Any solution `lam` of that transposed system gives the implicit-function
gradient: for every first-order change of the problem (`dres` the change of the residual with the
unknowns held, `dvals` the change of the boundary values) and the corresponding first-order change `du`
of the solution, `v . du = - lam . dres (free rows) + (cotangent of bc_vals) . dvals`. -/
theorem C20_gradient_is_implicit {n : ℕ} (bc : DirichletBC R) (hbc : CanonicalBC n bc)
    (K : ℕ → ℕ → R) (lam v du dres dvals : List R)
    (hadj : ∀ j < n, ∑ i ∈ Finset.range n, Spec.rowEliminated bc.rows K i j * lam.getD i 0 = v.getD j 0)
    (hint : ∀ i < n, i ∉ bc.rows →
      ∑ j ∈ Finset.range n, K i j * du.getD j 0 + dres.getD i 0 = 0)
    (hbd : ∀ k < bc.rows.length, du.getD (bc.rows.getD k 0) 0 = dvals.getD k 0) :
    ∑ j ∈ Finset.range n, v.getD j 0 * du.getD j 0
      = -(∑ i ∈ Finset.range n, if i ∈ bc.rows then 0 else lam.getD i 0 * dres.getD i 0)
        + ∑ k ∈ Finset.range bc.rows.length, (bcValsCotangent bc lam).getD k 0 * dvals.getD k 0 := by
  have hnd : bc.rows.Nodup := hbc.sorted.imp (fun h => Nat.ne_of_lt h)
  have e1 : ∑ j ∈ Finset.range n, v.getD j 0 * du.getD j 0
      = ∑ i ∈ Finset.range n, lam.getD i 0 *
          ∑ j ∈ Finset.range n, Spec.rowEliminated bc.rows K i j * du.getD j 0 := by
    simp only [Finset.mul_sum]
    rw [Finset.sum_comm]
    apply Finset.sum_congr rfl
    intro j hj
    rw [← hadj j (by simpa using hj), Finset.sum_mul]
    apply Finset.sum_congr rfl
    intro i _
    ring
  have e2 : ∑ k ∈ Finset.range bc.rows.length, (bcValsCotangent bc lam).getD k 0 * dvals.getD k 0
      = ∑ i ∈ Finset.range n, if i ∈ bc.rows then lam.getD i 0 * du.getD i 0 else 0 := by
    rw [← Finset.sum_filter]
    refine Finset.sum_bij (fun k _ => bc.rows.getD k 0) ?_ ?_ ?_ ?_
    · intro k hk
      have hm := rows_getD_mem bc (k := k) (by simpa using hk)
      exact Finset.mem_filter.mpr ⟨Finset.mem_range.mpr (hbc.lt _ hm), hm⟩
    · intro a ha b hb e
      have ha' : a < bc.rows.length := by simpa using ha
      have hb' : b < bc.rows.length := by simpa using hb
      rw [List.getD_eq_getElem _ _ ha', List.getD_eq_getElem _ _ hb'] at e
      exact (List.Nodup.getElem_inj_iff hnd).mp e
    · intro j hj
      obtain ⟨k, hk, e⟩ := mem_rows_getD hbc (Finset.mem_filter.mp hj).2
      exact ⟨k, Finset.mem_range.mpr hk, e⟩
    · intro k hk
      have hk' : k < bc.rows.length := by simpa using hk
      rw [hbd k hk']
      congr 1
      unfold bcValsCotangent gather
      rw [List.getD_eq_getElem _ _ (by simpa using hk'), List.getElem_map, List.getElem_map, neg_neg,
        List.getD_eq_getElem bc.rows _ hk']
  rw [e1, e2, ← Finset.sum_neg_distrib, ← Finset.sum_add_distrib]
  apply Finset.sum_congr rfl
  intro i hi
  have hi' : i < n := by simpa using hi
  by_cases hir : i ∈ bc.rows
  · rw [if_pos hir, if_pos hir]
    have : ∑ j ∈ Finset.range n, Spec.rowEliminated bc.rows K i j * du.getD j 0 = du.getD i 0 := by
      simp only [Spec.rowEliminated, if_pos hir]
      rw [Finset.sum_congr rfl (g := fun j => if i = j then du.getD j 0 else 0)
        (fun j _ => by split_ifs <;> simp), Finset.sum_ite_eq, if_pos hi]
    rw [this]; ring
  · rw [if_neg hir, if_neg hir]
    have h0 := hint i hi' hir
    simp only [Spec.rowEliminated, if_neg hir]
    linear_combination (lam.getD i 0) * h0

/-- **C20** (linear solver, what holds). The linear solver's adjoint has the right entries at all free
DOFs, so parameter gradients are right; with row elimination it is the true adjoint; with symmetric
elimination the cotangent of the boundary values is just the incoming cotangent there: the coupling
term is missing. -/
theorem C20_linear_solver_adjoint_partial {d : Discretization R α β} (h : DiscOK d)
    (bc : DirichletBC R) (hbc : CanonicalBC d.p.n bc) (hused : UsedBC d bc) (backend : Backend R)
    (direct symmetric : Bool) (sol v : List R)
    (hd : direct = true → d.p.view = .full)
    (hk : direct = false → symmetric = true →
      ∀ i < d.p.n, ∀ j < d.p.n, tangentAt d sol i j = tangentAt d sol j i)
    (hsolve : ∀ b x0, Spec.Solves d.p.view d.p.n (d.adjointOp bc direct symmetric sol) b
      (backend (d.adjointOp bc direct symmetric sol) b x0)) :
    (∀ i, i ∉ bc.rows → (linearAdjoint d backend direct symmetric bc sol v).getD i 0
      = (newtonAdjoint d backend direct symmetric bc sol v).getD i 0) ∧
    (symmetric = false → linearAdjoint d backend direct symmetric bc sol v
      = newtonAdjoint d backend direct symmetric bc sol v) ∧
    (symmetric = true → ∀ k < bc.rows.length,
      (bcValsCotangent bc (linearAdjoint d backend direct symmetric bc sol v)).getD k 0
        = v.getD (bc.rows.getD k 0) 0) := by
  obtain ⟨hlen, hx⟩ := adjoint_solved h bc hbc hused direct symmetric sol (fun e => Or.inl (hd e)) hk v _
    (hsolve v (adjointX0 bc v))
  refine ⟨?_, ?_, ?_⟩
  · intro i hi
    unfold linearAdjoint newtonAdjoint
    cases symmetric with
    | false => simp
    | true =>
      simp only [if_true]
      rw [scatterSet_getD_not_mem _ _ _ _ _ hi]
  · rintro rfl
    simp [linearAdjoint, newtonAdjoint]
  · rintro rfl k hk'
    have hm := rows_getD_mem bc hk'
    have hlt := hbc.lt _ hm
    have := hx _ hlt
    unfold bcValsCotangent gather
    rw [List.getD_eq_getElem _ _ (by simpa using hk'), List.getElem_map, List.getElem_map, neg_neg]
    rw [← this, List.getD_eq_getElem bc.rows _ hk'] 
    rw [List.getD_eq_getElem bc.rows _ hk'] at hm hlt
    rw [Finset.sum_eq_single_of_mem bc.rows[k] (by simpa using hlt)]
    · unfold linearAdjoint
      simp [elimEntry]
    · intro i _ hne
      unfold elimEntry
      by_cases h1 : i ∈ bc.rows
      · rw [if_pos h1, if_neg hne, zero_mul]
      · rw [if_neg h1, if_pos ⟨rfl, hm⟩, zero_mul]

end

/-! ## Concrete cases and violations -/

/-- Two bars of stiffness `1` on three nodes with a distributed load; a linear problem. -/
def exLinKv (a : ℤ) : Local ℤ := ⟨[a + 1, 2], [a, -a, -a, a]⟩

/-- No boundary faces are used. -/
def exLinKf (_ : ℕ) (_ : ℤ) : Local ℤ := ⟨[0, 0], [0, 0, 0, 0]⟩

/-- The discretisation with storage view `view`. -/
def exD (view : MatrixView) : Discretization ℤ ℤ ℤ where
  p := ⟨[⟨1, 3, 2, [[0, 1], [1, 2]]⟩], 2, [], view⟩
  kv := fun q => ⟨vadd (localMul 2 (exLinKv q.1).jac q.2) (exLinKv q.1).res, (exLinKv q.1).jac⟩
  kf := fun k q => ⟨vadd (localMul 2 (exLinKf k q.1).jac q.2) (exLinKf k q.1).res, (exLinKf k q.1).jac⟩
  zv := 0
  zf := 0
  cellsIn := [1, 1]
  facesIn := []
  batch := 1

theorem exD_ok (view : MatrixView) : DiscOK (exD view) where
  wf := by
    refine ⟨?_, by cases view <;> decide⟩
    intro v hv
    simp only [exD, List.mem_singleton] at hv
    subst hv
    exact ⟨rfl, by decide, by decide⟩
  batch := Nat.one_pos
  cells := rfl
  faces := .nil
  volJac := fun _ => rfl
  volRes := fun _ => rfl
  faceJac := fun _ _ => rfl
  faceRes := fun _ _ => rfl

theorem exD_lin (view : MatrixView) : LinearKernels (exD view) exLinKv exLinKf :=
  ⟨fun _ _ => rfl, fun _ _ _ => rfl⟩

theorem exD_shapes0 (view : MatrixView) :
    Shapes (exD view).p exLinKv exLinKf (exD view).cellsIn (exD view).facesIn :=
  ⟨rfl, .nil, fun _ => rfl, fun _ => rfl, fun _ _ => rfl, fun _ _ => rfl⟩

/-- First node held at `0`. -/
def exHold : DirichletBC ℤ := ⟨[0], [true, false, false], [0], 3⟩

theorem exHold_canonical (view : MatrixView) : CanonicalBC (exD view).p.n exHold := by
  cases view <;> exact ⟨by decide, by decide, by decide, by decide, by decide, by decide⟩

theorem exHold_used (view : MatrixView) : UsedBC (exD view) exHold := by
  intro sol r hr
  simp only [exHold, List.mem_singleton] at hr
  subst hr
  refine ⟨⟨[0, 1], _, _⟩, List.mem_append_left _ (List.mem_map.mpr
    ⟨((1, gather 0 sol [0, 1]), 0), ?_, rfl⟩), by simp⟩
  cases view <;> exact List.mem_cons_self

/-- A backend that solves the eliminated system of the example exactly (inverse of
`[[1,0,0],[0,2,-1],[0,-1,1]]`). -/
def exBackend : Backend ℤ := fun _ b _ =>
  [b.getD 0 0, b.getD 1 0 + b.getD 2 0, b.getD 1 0 + 2 * b.getD 2 0]

theorem exD_entries (view : MatrixView) (sol : List ℤ) : ∀ i < 3, ∀ j < 3,
    tangentAt (exD view) sol i j
      = ([[1, -1, 0], [-1, 2, -1], [0, -1, 1]].getD i []).getD j 0 := by
  intro i hi j hj
  rw [(residual_affine (exD_ok view) (exD_lin view) (exD_shapes0 view) sol).1 i j]
  revert i j
  cases view <;> decide

theorem exD_sym (view : MatrixView) (sol : List ℤ) : ∀ i < (exD view).p.n, ∀ j < (exD view).p.n,
    tangentAt (exD view) sol i j = tangentAt (exD view) sol j i := by
  have hn : (exD view).p.n = 3 := by cases view <;> rfl
  intro i hi j hj
  rw [hn] at hi hj
  rw [exD_entries view sol i hi j hj, exD_entries view sol j hj i hi]
  revert i j
  decide

/-- The backend meets its contract on the example, for every right-hand side, direct or matrix-free,
whatever the storage view and the boundary values. -/
theorem exBackend_solves (view : MatrixView) (direct : Bool) (sol vals : List ℤ) (hv : vals.length = 1)
    (b x0 : List ℤ) :
    Spec.Solves (exD view).p.view (exD view).p.n
      ((exD view).forwardOp (exHold.replaceVals vals) direct true sol) b
      (exBackend ((exD view).forwardOp (exHold.replaceVals vals) direct true sol) b x0) := by
  have hn : (exD view).p.n = 3 := by cases view <;> rfl
  have hc : CanonicalBC (exD view).p.n (exHold.replaceVals vals) := by
    have := exHold_canonical view
    exact ⟨this.sorted, this.lt, this.maskLength, this.mask, hv, this.total⟩
  have hu : UsedBC (exD view) (exHold.replaceVals vals) := exHold_used view
  have hE : ∀ i < 3, ∀ j < 3, elimEntry [0] true (tangentAt (exD view) sol) i j
      = ([[1, 0, 0], [0, 2, -1], [0, -1, 1]].getD i []).getD j 0 := by
    intro i hi j hj
    unfold elimEntry
    rw [exD_entries view sol i hi j hj]
    revert i j
    decide
  have hsum : ∀ i < 3, ∑ j ∈ Finset.range 3, elimEntry [0] true (tangentAt (exD view) sol) i j
      * (exBackend ((exD view).forwardOp (exHold.replaceVals vals) direct true sol) b x0).getD j 0
      = b.getD i 0 := by
    intro i hi
    rw [Finset.sum_congr rfl (fun j hj => by rw [hE i hi j (by simpa using hj)])]
    unfold exBackend
    interval_cases i <;> simp [Finset.sum_range_succ] <;> ring
  cases direct with
  | true =>
    refine ⟨by rw [hn]; rfl, fun i hi => ?_⟩
    refine Eq.trans (Finset.sum_congr rfl (fun j hj => ?_)) (by rw [hn] at hi ⊢; exact hsum i hi)
    have hj' : j < (exD view).p.n := by simpa using hj
    have := completed_jacBcAt (exD_ok view) _ hc hu true sol (Or.inr ⟨rfl, exD_sym view sol⟩) i j hi hj'
    rw [this]
    rfl
  | false =>
    refine ⟨by rw [hn]; rfl, fun i hi => ?_⟩
    have hlen : (exBackend ((exD view).forwardOp (exHold.replaceVals vals) false true sol) b x0).length
      = (exD view).p.n := by rw [hn]; rfl
    have := matfreeAt_getD (exD_ok view) _ hc true sol
      (exBackend ((exD view).forwardOp (exHold.replaceVals vals) false true sol) b x0) hlen i hi
    refine this.trans ?_
    rw [hn] at hi
    rw [← hsum i hi, hn]
    unfold elimEntry
    change (if i ∈ [0] then _ else _) = _
    by_cases hir : i ∈ [0]
    · simp only [if_pos hir]
      rw [Finset.sum_congr rfl (g := fun j => if i = j then
        (exBackend ((exD view).forwardOp (exHold.replaceVals vals) false true sol) b x0).getD j 0 else 0)
        (fun j _ => by split_ifs <;> simp), Finset.sum_ite_eq, if_pos (Finset.mem_range.mpr hi)]
    · simp only [if_neg hir]
      apply Finset.sum_congr rfl
      intro j _
      rw [show (exHold.replaceVals vals).rows = [0] from rfl]
      split_ifs <;> simp

example (view : MatrixView) (direct : Bool) :=
  C16_linear_solve_correct (exD_ok view) (exD_lin view) (exD_shapes0 view) exHold
    (exHold_canonical view) (exHold_used view) exBackend direct true [0, 7, 9]
    (by cases view <;> rfl) (fun _ => by unfold Spec.MeetsBC; decide)
    (fun _ => Or.inr ⟨rfl, exD_sym view _⟩)
    (fun b x0 => exBackend_solves view direct _ [0] rfl b x0)

example (view : MatrixView) (direct : Bool) := C16_default_call (exD_ok view) (exD_lin view) (exD_shapes0 view) exHold
    (exHold_canonical view) (exHold_used view) exBackend direct true
    (fun _ => Or.inr ⟨rfl, exD_sym view _⟩)
    (fun b x0 => exBackend_solves view direct _ [0] rfl b x0)

/-- The solution of the example: loads `(2, 4, 2)`. -/
example : linearStep (exD .upper) exBackend true true exHold [0, 7, 9] = [0, -6, -8] ∧
    (exD .upper).residualAt [0, -6, -8] = [8, 0, 0] := by decide

/-- **C17** (violation). Overriding the boundary value `0` by `1` with the default initial guess, on a
solver whose backend is exact: the boundary DOF gets the new value but the interior equations are not
satisfied (the interior is the one of the old boundary value). -/
theorem C17_override_leaves_interior_unsolved :
    (∀ b x0, Spec.Solves (exD .full).p.view (exD .full).p.n
      ((exD .full).forwardOp (exHold.replaceVals [1]) true true (zeroLikeGuess 3 exHold)) b
      (exBackend ((exD .full).forwardOp (exHold.replaceVals [1]) true true (zeroLikeGuess 3 exHold)) b x0)) ∧
    linearSolver (exD .full) exBackend true true exHold none (some (exHold.replaceVals [1])) = [1, -6, -8] ∧
    ((exD .full).residualAt [1, -6, -8]).getD 1 0 = -1 :=
  ⟨fun b x0 => exBackend_solves .full true _ [1] rfl b x0, by decide, by decide⟩

example := C17_override_partial (exD_ok .full) (exD_lin .full) (exD_shapes0 .full) exHold
    (exHold_canonical .full) (exHold_used .full) exBackend true true [1] rfl
    (fun _ => Or.inl rfl) (fun b x0 => exBackend_solves .full true _ [1] rfl b x0)

example := C60_x0_satisfies_bc_rows 3 exHold (exHold_canonical .full) [5, 7, 9] [1, 2, 3] rfl rfl
example : createX0 ⟨[0, 2], [true, false, true], [4, 1], 3⟩ [5, 7, 9] = [-1, 0, -8] := by decide

/-- The adjoint system of the (symmetric) example is the forward one, so the same backend solves it. -/
theorem exBackend_solves_adjoint (view : MatrixView) (direct : Bool) (sol b x0 : List ℤ) :
    Spec.Solves (exD view).p.view (exD view).p.n ((exD view).adjointOp exHold direct true sol) b
      (exBackend ((exD view).adjointOp exHold direct true sol) b x0) := by
  have hf := exBackend_solves view direct sol [0] rfl b x0
  cases direct with
  | false => exact hf
  | true =>
    cases view with
    | upper => exact hf
    | lower => exact hf
    | full =>
      refine ⟨hf.1, fun i hi => (Finset.sum_congr rfl (fun j hj => ?_)).trans (hf.2 i hi)⟩
      have hj' : j < (exD .full).p.n := by simpa using hj
      have e1 := transposed_todense (exD_ok .full) exHold (exHold_canonical .full) true sol i j hi hj'
      have e2 := jacBcAt_todense (exD_ok .full) exHold (exHold_canonical .full) (exHold_used .full) true
        sol i j hi hj'
      have e3 := jacBcAt_todense (exD_ok .full) exHold (exHold_canonical .full) (exHold_used .full) true
        sol j i hj' hi
      have e4 := elimEntry_symm exHold.rows (tangentAt (exD .full) sol) i j (exD_sym .full sol i hi j hj')
      have e5 : ((exD .full).jacBcAt exHold true sol).todense j i
          = ((exD .full).jacBcAt exHold true sol).todense i j := by
        rw [e2, e3]
        exact e4.symm
      exact congrArg (· * _) (e1.trans e5)

example (direct : Bool) (sol : List ℤ) := C20_newton_adjoint_is_true_adjoint_partial (exD_ok .full) exHold
  (exHold_canonical .full) (exHold_used .full) exBackend direct true sol [0, 0, 1] (fun _ => rfl)
  (fun _ _ => exD_sym .full sol) (fun b x0 => exBackend_solves_adjoint .full direct sol b x0)

/-- The tip displacement moves by `1` when the held node moves by `1`: the Newton rule says so. -/
example : newtonAdjoint (exD .full) exBackend true true exHold [0, -6, -8] [0, 0, 1] = [1, 1, 2] ∧
    newtonAdjoint (exD .full) exBackend false true exHold [0, -6, -8] [0, 0, 1] = [1, 1, 2] := by decide

example := C20_gradient_is_implicit exHold (exHold_canonical .full)
  (fun i j => ([[1, -1, 0], [-1, 2, -1], [0, -1, 1]].getD i []).getD j 0)
  [1, 1, 2] [0, 0, 1] [5, 5, 5] [0, 0, 0] [5] (by decide) (by decide) (by decide)

/-- **C20** (violation, linear solver). Same problem, same exact backend: the linear solver's reverse
rule returns `0` for the derivative of the tip displacement with respect to the boundary value; the
true derivative (any `du` consistent with the equations) is `1`. -/
theorem C20_linear_solver_bc_gradient_wrong :
    (∀ b x0, Spec.Solves (exD .full).p.view (exD .full).p.n
      ((exD .full).adjointOp exHold true true [0, -6, -8]) b
      (exBackend ((exD .full).adjointOp exHold true true [0, -6, -8]) b x0)) ∧
    bcValsCotangent exHold (linearAdjoint (exD .full) exBackend true true exHold [0, -6, -8] [0, 0, 1])
      = [0] ∧
    ∀ du : List ℤ, (∀ i < 3, i ∉ exHold.rows →
        ∑ j ∈ Finset.range 3, tangentAt (exD .full) [0, -6, -8] i j * du.getD j 0 = 0) →
      du.getD 0 0 = 1 → du.getD 2 0 = 1 := by
  refine ⟨fun b x0 => exBackend_solves_adjoint .full true _ b x0, by decide, ?_⟩
  intro du hdu h0
  have hE := exD_entries .full [0, -6, -8]
  have h1 := hdu 1 (by decide) (by decide)
  have h2 := hdu 2 (by decide) (by decide)
  rw [Finset.sum_congr rfl (fun j hj => by rw [hE 1 (by decide) j (by simpa using hj)])] at h1
  rw [Finset.sum_congr rfl (fun j hj => by rw [hE 2 (by decide) j (by simpa using hj)])] at h2
  simp only [Finset.sum_range_succ, Finset.sum_range_zero, List.getD_cons_succ, List.getD_cons_zero]
    at h1 h2
  omega

/-- **C20** (violation, triangular storage). With upper storage and a direct adjoint the Newton rule's
correction uses the transpose of the *stored triangle*, so the coupling is lost and the derivative with
respect to the boundary value is again `0` instead of `1`. -/
theorem C20_triangular_storage_bc_gradient_wrong :
    (∀ b x0, Spec.Solves (exD .upper).p.view (exD .upper).p.n
      ((exD .upper).adjointOp exHold true true [0, -6, -8]) b
      (exBackend ((exD .upper).adjointOp exHold true true [0, -6, -8]) b x0)) ∧
    bcValsCotangent exHold (newtonAdjoint (exD .upper) exBackend true true exHold [0, -6, -8] [0, 0, 1])
      = [0] ∧
    bcValsCotangent exHold (newtonAdjoint (exD .full) exBackend true true exHold [0, -6, -8] [0, 0, 1])
      = [1] :=
  ⟨fun b x0 => exBackend_solves_adjoint .upper true _ b x0, by decide, by decide⟩

/-- One cell with the nonsymmetric matrix `[[1,0,0],[0,1,1],[0,0,1]]` on three nodes. -/
def exNs : Discretization ℤ ℤ ℤ where
  p := ⟨[⟨1, 3, 3, [[0, 1, 2]]⟩], 1, [], .full⟩
  kv := fun q => ⟨vadd (localMul 3 [1, 0, 0, 0, 1, 1, 0, 0, 1] q.2) [0, 0, 0], [1, 0, 0, 0, 1, 1, 0, 0, 1]⟩
  kf := fun _ _ => ⟨[0, 0, 0], [0, 0, 0, 0, 0, 0, 0, 0, 0]⟩
  zv := 0
  zf := 0
  cellsIn := [0]
  facesIn := []
  batch := 1

/-- The exact solver of that system. -/
def exNsBackend : Backend ℤ := fun _ b _ => [b.getD 0 0, b.getD 1 0 - b.getD 2 0, b.getD 2 0]

/-- **C20** (violation, matrix-free and nonsymmetric tangent). With symmetric elimination the
matrix-free adjoint solves with the forward operator; for a nonsymmetric tangent the returned vector
does not satisfy the transposed system. -/
theorem C20_matfree_nonsymmetric_adjoint_wrong :
    exNs.matfreeAt exHold true [0, 0, 0] (exNsBackend (exNs.adjointOp exHold false true [0, 0, 0]) [0, 1, 0] [])
      = [0, 1, 0] ∧
    ∑ i ∈ Finset.range 3, Spec.rowEliminated exHold.rows
      (fun i j => ([[1, 0, 0], [0, 1, 1], [0, 0, 1]].getD i []).getD j 0) i 2
        * (newtonAdjoint exNs exNsBackend false true exHold [0, 0, 0] [0, 1, 0]).getD i 0
      ≠ ([0, 1, 0] : List ℤ).getD 2 0 := by
  constructor
  · decide
  · decide

end Verif.Props
