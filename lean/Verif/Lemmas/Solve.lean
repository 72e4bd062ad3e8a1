import Verif.Spec.Solve
import Verif.Props.BC

/-! Facts about the solver building blocks. -/

set_option linter.unusedSectionVars false

namespace Verif.Props
open Verif.Model
open scoped BigOperators

variable {R : Type*} [CommRing R] {α β : Type*}

theorem items_elements_gen (p : Problem) (kv : α → Local R) (kf : ℕ → β → Local R)
    (cellsIn : List α) (facesIn : List (List β))
    (g : Local R → List R → Local R) (hs : Shapes p kv kf cellsIn facesIn) (v : List R) :
    elements p (fun q : α × List R => g (kv q.1) q.2)
      (fun k (q : β × List R) => g (kf k q.1) q.2)
      (cellItems p cellsIn v) (faceItems p facesIn v)
      = (elements p kv kf cellsIn facesIn).map (fun e =>
          ⟨e.dofs, (g ⟨e.res, e.jac⟩ (e.dofs.map (fun d => v.getD d 0))).res,
            (g ⟨e.res, e.jac⟩ (e.dofs.map (fun d => v.getD d 0))).jac⟩) := by
  unfold elements
  rw [List.map_append, List.map_map]
  congr 1
  · apply List.ext_getElem
    · simp [cellItems, p.volInds_count, hs.cells]
    · intro c h1 h2
      have hc : c < cellsIn.length := by simpa using h2
      simp [cellItems, Problem.volInds, buildInds, cellDofs_eq_spec, cellNodes, gather]
  · rw [List.map_flatMap]
    unfold faceItems
    have key : ∀ (st : ℕ) (fI : List (List β)) (fC : List (List ℕ)),
        List.Forall₂ (fun (a : List β) (b : List ℕ) => a.length = b.length) fI fC →
        (∀ k, p.faceCells.getD (st + k) [] = fC.getD k []) →
        ((List.zipWith (fun fs fc => fs.zip ((buildFaceInds p.vars fc).map (gather 0 v))) fI fC).zipIdx
          st).flatMap (fun fb => (fb.1.zip (p.faceCells.getD fb.2 [])).map (fun q =>
            (⟨Spec.elemDofs (fields p.vars) (cellNodes p q.2),
              (g (kf fb.2 q.1.1) q.1.2).res, (g (kf fb.2 q.1.1) q.1.2).jac⟩ : Spec.Elem R)))
        = (fI.zipIdx st).flatMap (fun fb => ((fb.1.zip (p.faceCells.getD fb.2 [])).map (fun q =>
            (⟨Spec.elemDofs (fields p.vars) (cellNodes p q.2), (kf fb.2 q.1).res,
              (kf fb.2 q.1).jac⟩ : Spec.Elem R))).map (fun e =>
          ⟨e.dofs, (g ⟨e.res, e.jac⟩ (e.dofs.map (fun d => v.getD d 0))).res,
            (g ⟨e.res, e.jac⟩ (e.dofs.map (fun d => v.getD d 0))).jac⟩)) := by
      intro st fI fC hf hk
      induction hf generalizing st with
      | nil => simp
      | cons hab hf ih =>
        rename_i a b l1 l2
        rw [List.zipWith_cons_cons, List.zipIdx_cons, List.zipIdx_cons, List.flatMap_cons,
          List.flatMap_cons]
        congr 1
        · have hb := hk 0
          simp only [Nat.add_zero, List.getD_cons_zero] at hb
          simp only [hb]
          apply List.ext_getElem
          · simp [buildFaceInds]
          · intro c h1 h2
            simp [buildFaceInds, cellDofs_eq_spec, cellNodes, gather]
        · apply ih
          intro k
          have := hk (k + 1)
          rw [List.getD_cons_succ] at this
          rw [← this]
          congr 1
          omega
    exact key 0 facesIn p.faceCells hs.faces (fun k => by rw [Nat.zero_add])

/-- Static shapes of a discretisation and non-degenerate batch size. -/
structure DiscOK (d : Discretization R α β) : Prop where
  wf : d.p.WF
  batch : 0 < d.batch
  cells : d.cellsIn.length = d.p.numCells
  faces : List.Forall₂ (fun (a : List β) (b : List ℕ) => a.length = b.length) d.facesIn d.p.faceCells
  volJac : ∀ a, (d.kv a).jac.length = d.p.ndof * d.p.ndof
  volRes : ∀ a, (d.kv a).res.length = d.p.ndof
  faceJac : ∀ k x, (d.kf k x).jac.length = d.p.ndof * d.p.ndof
  faceRes : ∀ k x, (d.kf k x).res.length = d.p.ndof

theorem DiscOK.shapes {d : Discretization R α β} (h : DiscOK d) (sol : List R) :
    Shapes d.p d.kv d.kf (cellItems d.p d.cellsIn sol) (faceItems d.p d.facesIn sol) := by
  refine ⟨?_, faceItems_shape d.p sol h.faces, h.volJac, h.volRes, h.faceJac, h.faceRes⟩
  simp [cellItems, d.p.volInds_count, h.cells]

/-- The element contributions at `sol`. -/
def elementsAt (d : Discretization R α β) (sol : List R) : List (Spec.Elem R) :=
  elements d.p d.kv d.kf (cellItems d.p d.cellsIn sol) (faceItems d.p d.facesIn sol)

/-- The exact tangent at `sol`: sum of element tangents. -/
def tangentAt (d : Discretization R α β) (sol : List R) (i j : ℕ) : R :=
  Spec.assembledMat (elementsAt d sol) i j

/-- Every constrained DOF belongs to an element. -/
def UsedBC (d : Discretization R α β) (bc : DirichletBC R) : Prop :=
  ∀ sol, ∀ r ∈ bc.rows, ∃ e ∈ elementsAt d sol, r ∈ e.dofs

theorem residualAt_length {d : Discretization R α β} (h : DiscOK d) (sol : List R) :
    (d.residualAt sol).length = d.p.n := by
  unfold Discretization.residualAt
  rw [C04_residual_is_scatter_add d.p _ _ _ _ _ _ _ h.wf (h.shapes sol) h.batch]
  simp

/-- The matrix-free product, entry by entry (any storage view). -/
theorem matfreeAt_getD {d : Discretization R α β} (h : DiscOK d) (bc : DirichletBC R)
    (hbc : CanonicalBC d.p.n bc) (symmetric : Bool) (sol v : List R) (hv : v.length = d.p.n)
    (i : ℕ) (hi : i < d.p.n) :
    (d.matfreeAt bc symmetric sol v).getD i 0 = if i ∈ bc.rows then v.getD i 0 else
      ∑ j ∈ Finset.range d.p.n, tangentAt d sol i j *
        (if symmetric = true ∧ j ∈ bc.rows then 0 else v.getD j 0) := by
  have hs := h.shapes sol
  have hlenK : ∀ x, (residualJvp d.p d.kv d.kf (d.zv, []) (d.zf, []) (cellItems d.p d.cellsIn sol)
    (faceItems d.p d.facesIn sol) d.batch x).length = d.p.n := by
    intro x
    unfold residualJvp
    rw [C04_residual_is_scatter_add d.p _ _ _ _ _ _ _ h.wf
      (items_shapes d.p _ _ _ _ (localMul d.p.ndof) (fun _ _ => by simp [localMul]) hs x) h.batch]
    simp
  unfold Discretization.matfreeAt matfreeMatvec
  simp only
  set vIn := if symmetric then List.zipWith (fun m x => if m then 0 else x) bc.mask v else v with hvIn
  have hvInget : ∀ j < d.p.n, vIn.getD j 0
      = if symmetric = true ∧ j ∈ bc.rows then 0 else v.getD j 0 := by
    intro j hj
    have hm := hbc.mask j hj
    have hml : j < bc.mask.length := by rw [hbc.maskLength]; exact hj
    have hvl : j < v.length := by omega
    rw [hvIn]
    cases symmetric with
    | false => simp
    | true =>
      rw [if_pos rfl, List.getD_eq_getElem _ _ (by simp; exact ⟨hml, hvl⟩), List.getElem_zipWith]
      rw [List.getD_eq_getElem _ _ hml] at hm
      rw [List.getD_eq_getElem v _ hvl]
      by_cases hjr : j ∈ bc.rows
      · rw [if_pos (hm.mpr hjr), if_pos ⟨rfl, hjr⟩]
      · rw [if_neg (fun hh => hjr (hm.mp hh)), if_neg (fun hh => hjr hh.2)]
  have hml : i < bc.mask.length := by rw [hbc.maskLength]; exact hi
  have hvl : i < v.length := by omega
  have hm := hbc.mask i hi
  rw [List.getD_eq_getElem _ _ hml] at hm
  rw [List.getD_eq_getElem _ _ (by simp [hlenK, hml, hvl, hi]), List.getElem_zipWith, List.getElem_zip]
  simp only
  by_cases hir : i ∈ bc.rows
  · rw [if_pos (hm.mpr hir), if_pos hir, List.getD_eq_getElem _ _ hvl]
  · rw [if_neg (fun hh => hir (hm.mp hh)), if_neg hir]
    rw [← List.getD_eq_getElem _ 0 (by rw [hlenK]; exact hi),
      C14_jvp_is_matvec d.p d.kv d.kf _ _ _ _ _ h.wf hs h.batch vIn i hi]
    apply Finset.sum_congr rfl
    intro j hj
    rw [hvInget j (by simpa using hj)]
    rfl

/-- Entry of the eliminated tangent. -/
def elimEntry (rows : List ℕ) (symmetric : Bool) (K : ℕ → ℕ → R) (i j : ℕ) : R :=
  if i ∈ rows then (if i = j then 1 else 0)
  else if symmetric = true ∧ j ∈ rows then 0 else K i j

theorem jacBcAt_todense {d : Discretization R α β} (h : DiscOK d) (bc : DirichletBC R)
    (hbc : CanonicalBC d.p.n bc) (hused : UsedBC d bc) (symmetric : Bool) (sol : List R)
    (i j : ℕ) (hi : i < d.p.n) (hj : j < d.p.n) :
    (d.jacBcAt bc symmetric sol).todense i j = if i ∈ bc.rows then (if i = j then 1 else 0)
      else if symmetric = true ∧ j ∈ bc.rows then 0
      else if d.p.view.keep i j then tangentAt d sol i j else 0 :=
  C12_assembled d.p d.kv d.kf _ _ _ _ d.batch h.wf (h.shapes sol) h.batch bc hbc (hused sol)
    symmetric i j hi hj

/-- The matrix the assembled eliminated operator stands for. -/
theorem completed_jacBcAt {d : Discretization R α β} (h : DiscOK d) (bc : DirichletBC R)
    (hbc : CanonicalBC d.p.n bc) (hused : UsedBC d bc) (symmetric : Bool) (sol : List R)
    (hview : d.p.view = .full ∨ (symmetric = true ∧
      ∀ i < d.p.n, ∀ j < d.p.n, tangentAt d sol i j = tangentAt d sol j i))
    (i j : ℕ) (hi : i < d.p.n) (hj : j < d.p.n) :
    Spec.completed d.p.view (d.jacBcAt bc symmetric sol).todense i j
      = elimEntry bc.rows symmetric (tangentAt d sol) i j := by
  have key := fun a b => jacBcAt_todense h bc hbc hused symmetric sol a b
  unfold elimEntry
  cases hv : d.p.view with
  | full =>
    simp only [Spec.completed]
    rw [key i j hi hj, hv]
    simp [MatrixView.keep]
  | upper =>
    rw [hv] at hview
    obtain ⟨rfl, hsym⟩ := hview.resolve_left (by simp)
    simp only [Spec.completed]
    rcases le_total i j with hij | hij
    · rw [min_eq_left hij, max_eq_right hij, key i j hi hj, hv]
      simp [MatrixView.keep, hij]
    · rw [min_eq_right hij, max_eq_left hij, key j i hj hi, hv, hsym i hi j hj]
      simp only [MatrixView.keep, hij, decide_true, if_true, true_and]
      by_cases h1 : i ∈ bc.rows <;> by_cases h2 : j ∈ bc.rows <;> simp [h1, h2, eq_comm]
      · rintro rfl; exact absurd h1 h2
      · rintro rfl; exact absurd h2 h1
  | lower =>
    rw [hv] at hview
    obtain ⟨rfl, hsym⟩ := hview.resolve_left (by simp)
    simp only [Spec.completed]
    rcases le_total i j with hij | hij
    · rw [min_eq_left hij, max_eq_right hij, key j i hj hi, hv, hsym i hi j hj]
      simp only [MatrixView.keep, hij, decide_true, if_true, true_and]
      by_cases h1 : i ∈ bc.rows <;> by_cases h2 : j ∈ bc.rows <;> simp [h1, h2, eq_comm]
      · rintro rfl; exact absurd h1 h2
      · rintro rfl; exact absurd h2 h1
    · rw [min_eq_right hij, max_eq_left hij, key i j hi hj, hv]
      simp [MatrixView.keep, hij]

/-- What a backend that solved the forward system guarantees, in terms of the exact tangent. -/
theorem forward_solved {d : Discretization R α β} (h : DiscOK d) (bc : DirichletBC R)
    (hbc : CanonicalBC d.p.n bc) (hused : UsedBC d bc) (direct symmetric : Bool) (sol : List R)
    (hview : direct = true → d.p.view = .full ∨ (symmetric = true ∧
      ∀ i < d.p.n, ∀ j < d.p.n, tangentAt d sol i j = tangentAt d sol j i))
    (b x : List R) (hsol : Spec.Solves d.p.view d.p.n (d.forwardOp bc direct symmetric sol) b x) :
    x.length = d.p.n ∧ ∀ i < d.p.n,
      ∑ j ∈ Finset.range d.p.n, elimEntry bc.rows symmetric (tangentAt d sol) i j * x.getD j 0
        = b.getD i 0 := by
  unfold Discretization.forwardOp at hsol
  cases direct with
  | true =>
    rw [if_pos rfl] at hsol
    refine ⟨hsol.1, fun i hi => ?_⟩
    rw [← hsol.2 i hi]
    apply Finset.sum_congr rfl
    intro j hj
    rw [completed_jacBcAt h bc hbc hused symmetric sol (hview rfl) i j hi (by simpa using hj)]
  | false =>
    rw [if_neg (by simp)] at hsol
    refine ⟨hsol.1, fun i hi => ?_⟩
    rw [← hsol.2 i hi, matfreeAt_getD h bc hbc symmetric sol x hsol.1 i hi]
    unfold elimEntry
    by_cases hir : i ∈ bc.rows
    · simp only [if_pos hir]
      rw [Finset.sum_congr rfl (g := fun j => if i = j then x.getD j 0 else 0)
        (fun j _ => by split_ifs <;> simp), Finset.sum_ite_eq, if_pos (by simpa using hi)]
    · simp only [if_neg hir]
      apply Finset.sum_congr rfl
      intro j _
      split_ifs <;> simp

theorem vadd_getD (a b : List R) (h : a.length = b.length) (i : ℕ) :
    (vadd a b).getD i 0 = a.getD i 0 + b.getD i 0 := by
  unfold vadd
  by_cases hi : i < a.length
  · have hb : i < b.length := h ▸ hi
    rw [List.getD_eq_getElem _ _ (by simp [hi, hb]), List.getElem_zipWith,
      List.getD_eq_getElem _ _ hi, List.getD_eq_getElem _ _ hb]
  · rw [List.getD_eq_default _ _ (by simp; omega), List.getD_eq_default _ _ (by omega),
      List.getD_eq_default _ _ (by omega), add_zero]

theorem vneg_getD (a : List R) (i : ℕ) : (vneg a).getD i 0 = -(a.getD i 0) := by
  unfold vneg
  by_cases hi : i < a.length
  · rw [List.getD_eq_getElem _ _ (by simpa using hi), List.getElem_map, List.getD_eq_getElem _ _ hi]
  · rw [List.getD_eq_default _ _ (by simpa using hi), List.getD_eq_default _ _ (by omega), neg_zero]

theorem mem_rows_getD {n : ℕ} {bc : DirichletBC R} (_ : CanonicalBC n bc) {i : ℕ} (hi : i ∈ bc.rows) :
    ∃ k < bc.rows.length, bc.rows.getD k 0 = i := by
  obtain ⟨k, hk, e⟩ := List.mem_iff_getElem.mp hi
  exact ⟨k, hk, by rw [List.getD_eq_getElem _ _ hk, e]⟩

theorem rows_getD_mem (bc : DirichletBC R) {k : ℕ} (hk : k < bc.rows.length) :
    bc.rows.getD k 0 ∈ bc.rows := by
  rw [List.getD_eq_getElem _ _ hk]; exact List.getElem_mem hk

end Verif.Props
