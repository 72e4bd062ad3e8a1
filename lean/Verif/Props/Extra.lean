import Verif.Props.Solve
import Verif.Props.AsdOps
import Verif.Model.Extra

/-!
# Extra residual terms in the Newton solver (C125)
-/

namespace Verif.Props.Spec.Extra

open Verif.Model
open scoped BigOperators

/-- An extra term fits a problem with `n` unknowns: its residual has `n` entries. -/
def Fits {R : Type} (e : ExtraTerm R) (n : ℕ) : Prop := ∀ sol, (e.fn sol).length = n

/-- The sparsity library is right about the extra term: every nonzero of its Jacobian outside the constrained rows is
listed, and the listed positions are in range. -/
structure Detects {R : Type} [Zero R] (e : ExtraTerm R) (n : ℕ) (rows : List ℕ) (detected : List ℕ × List ℕ) : Prop where
  length : detected.1.length = detected.2.length
  rows_lt : ∀ r ∈ detected.1, r < n
  cols_lt : ∀ q ∈ detected.2, q < n
  covers : ∀ sol, ∀ i < n, ∀ j < n, i ∉ rows → e.jac sol i j ≠ 0 → (i, j) ∈ detected.1.zip detected.2

end Verif.Props.Spec.Extra

namespace Verif.Props

open Verif.Model Spec.Extra Spec.Asd
open scoped BigOperators

section
variable {R : Type} [CommRing R] {α β : Type*}

/-! ### Products with the extra Jacobian -/

theorem zeroAt_length (rows : List ℕ) (x : List R) : (ExtraTerm.zeroAt rows x).length = x.length := scatterSet_length _ _ _

theorem zeroAt_getD (rows : List ℕ) (x : List R) (i : ℕ) (hi : i < x.length) :
    (ExtraTerm.zeroAt rows x).getD i 0 = if i ∈ rows then 0 else x.getD i 0 := by
  unfold ExtraTerm.zeroAt
  rw [show List.replicate rows.length (0 : R) = rows.map (fun _ => 0) by simp]
  exact scatterSet_const 0 0 x rows i hi

/-- The Jacobian of the extra term after elimination. -/
def extraElim (e : ExtraTerm R) (rows : List ℕ) (symmetric : Bool) (sol : List R) (i j : ℕ) : R :=
  if i ∈ rows then 0 else if symmetric = true ∧ j ∈ rows then 0 else e.jac sol i j

theorem range_map_getD {n : ℕ} (f : ℕ → R) {i : ℕ} (hi : i < n) : ((List.range n).map f).getD i 0 = f i := by
  rw [List.getD_eq_getElem _ _ (by simpa using hi)]
  simp

theorem jvp_multiplies (e : ExtraTerm R) (n : ℕ) (rows : List ℕ) (symmetric : Bool) (sol : List R) :
    Multiplies n n (extraElim e rows symmetric sol) (e.jvp n rows symmetric sol) := by
  intro v hv
  unfold ExtraTerm.jvp
  refine ⟨by simp [zeroAt_length], fun i hi => ?_⟩
  simp only
  rw [zeroAt_getD _ _ _ (by simpa using hi), range_map_getD _ hi]
  unfold extraElim
  by_cases hir : i ∈ rows
  · simp [hir]
  · rw [if_neg hir]
    apply Finset.sum_congr rfl
    intro j hj
    have hj' : j < v.length := by rw [hv]; simpa using hj
    cases symmetric with
    | false => simp [hir]
    | true =>
      rw [if_pos rfl, zeroAt_getD _ _ _ hj']
      by_cases hjr : j ∈ rows <;> simp [hir, hjr]

theorem vjp_multiplies (e : ExtraTerm R) (n : ℕ) (rows : List ℕ) (symmetric : Bool) (sol : List R) :
    Multiplies n n (fun j i => extraElim e rows symmetric sol i j) (e.vjp n rows symmetric sol) := by
  intro w hw
  unfold ExtraTerm.vjp
  have hy : ∀ j < n, ((List.range n).map fun j => ∑ i ∈ Finset.range n, e.jac sol i j * (ExtraTerm.zeroAt rows w).getD i 0).getD j 0
      = ∑ i ∈ Finset.range n, (if i ∈ rows then 0 else e.jac sol i j) * w.getD i 0 := by
    intro j hj
    rw [range_map_getD _ hj]
    apply Finset.sum_congr rfl
    intro i hi
    rw [zeroAt_getD _ _ _ (by rw [hw]; simpa using hi)]
    by_cases hir : i ∈ rows <;> simp [hir]
  constructor
  · cases symmetric <;> simp [zeroAt_length]
  · intro j hj
    cases symmetric with
    | false =>
      simp only [Bool.false_eq_true, if_false]
      rw [hy j hj]
      apply Finset.sum_congr rfl
      intro i _
      simp [extraElim]
    | true =>
      simp only [if_true]
      rw [zeroAt_getD _ _ _ (by simpa using hj), hy j hj]
      by_cases hjr : j ∈ rows
      · rw [if_pos hjr]
        symm
        apply Finset.sum_eq_zero
        intro i _
        simp [extraElim, hjr]
      · rw [if_neg hjr]
        apply Finset.sum_congr rfl
        intro i _
        simp [extraElim, hjr]

/-- Bulk and extra parts add up to the eliminated total tangent. -/
theorem elimEntry_add (rows : List ℕ) (symmetric : Bool) (K : ℕ → ℕ → R) (e : ExtraTerm R) (sol : List R) (i j : ℕ) :
    elimEntry rows symmetric K i j + extraElim e rows symmetric sol i j
      = elimEntry rows symmetric (fun a b => K a b + e.jac sol a b) i j := by
  unfold elimEntry extraElim
  split_ifs <;> simp

/-! ### The assembled bulk matrix -/

theorem jacBcAt_wf {d : Discretization R α β} (h : DiscOK d) (bc : DirichletBC R) (hbc : CanonicalBC d.p.n bc)
    (symmetric : Bool) (sol : List R) :
    WellFormed (d.jacBcAt bc symmetric sol) ∧ (d.jacBcAt bc symmetric sol).numRows = d.p.n ∧
      (d.jacBcAt bc symmetric sol).numCols = d.p.n := by
  have hJ := jacobianAt_hasPattern h sol
  have e : d.jacBcAt bc symmetric sol
      = CSRMatrix.mk (applyBcJ bc d.p.maps (d.jacobianAt sol).data symmetric) d.p.maps.indptr
        d.p.maps.indices d.p.n d.p.n := by
    unfold Discretization.jacBcAt jacBc CSRMatrix.withData
    rw [hJ.indptr, hJ.indices, hJ.rows, hJ.cols]
  have hdata : (applyBcJ bc d.p.maps (d.jacobianAt sol).data symmetric).length = d.p.maps.indices.length := by
    rw [applyBcJ_length bc hbc, hJ.data, d.p.maps_nse, d.p.maps_indices, List.length_map]
    · rw [hJ.data, d.p.maps_nse]
      have := Problem.maps_rowOfSlot d.p
      rw [this, List.length_map]
    · rw [hJ.data, d.p.maps_nse, d.p.maps_indices, List.length_map]
  have hcan := C02_pattern_canonical d.p h.wf
  rw [e]
  generalize applyBcJ bc d.p.maps (d.jacobianAt sol).data symmetric = data at hdata
  generalize d.p.maps.indptr = indptr at hcan
  generalize d.p.maps.indices = indices at hcan hdata
  exact ⟨⟨hcan, hdata⟩, rfl, rfl⟩

/-- The entries the assembled bulk matrix stores. -/
def storedElim (d : Discretization R α β) (rows : List ℕ) (symmetric : Bool) (sol : List R) (i j : ℕ) : R :=
  elimEntry rows symmetric (fun a b => if d.p.view.keep a b then tangentAt d sol a b else 0) i j

theorem jacBcAt_stored {d : Discretization R α β} (h : DiscOK d) (bc : DirichletBC R) (hbc : CanonicalBC d.p.n bc)
    (hused : UsedBC d bc) (symmetric : Bool) (sol : List R) (i j : ℕ) (hi : i < d.p.n) (hj : j < d.p.n) :
    (d.jacBcAt bc symmetric sol).todense i j = storedElim d bc.rows symmetric sol i j :=
  jacBcAt_todense h bc hbc hused symmetric sol i j hi hj

theorem storedElim_full {d : Discretization R α β} (hview : d.p.view = .full) (rows : List ℕ) (symmetric : Bool)
    (sol : List R) (i j : ℕ) : storedElim d rows symmetric sol i j = elimEntry rows symmetric (tangentAt d sol) i j := by
  unfold storedElim
  rw [hview]
  simp [MatrixView.keep]

theorem matvec_len (A : CSRMatrix R) (v : List R) : (A.matvec v).length = A.numRows := by
  simp [CSRMatrix.matvec, segmentSum]

theorem rmatvec_len (A : CSRMatrix R) (v : List R) : (A.rmatvec v).length = A.numCols := by
  simp [CSRMatrix.rmatvec, segmentSum]

/-- The hybrid product, entry by entry, whatever the storage. -/
theorem hybridOp_getD {d : Discretization R α β} (h : DiscOK d) (bc : DirichletBC R) (hbc : CanonicalBC d.p.n bc)
    (hused : UsedBC d bc) (e : ExtraTerm R) (symmetric : Bool) (sol v : List R) (hv : v.length = d.p.n) :
    (e.hybridOp d bc.rows symmetric bc sol v).length = d.p.n ∧ ∀ i < d.p.n,
      (e.hybridOp d bc.rows symmetric bc sol v).getD i 0 = ∑ j ∈ Finset.range d.p.n,
        (storedElim d bc.rows symmetric sol i j + extraElim e bc.rows symmetric sol i j) * v.getD j 0 := by
  obtain ⟨hwf, hr, hc⟩ := jacBcAt_wf h bc hbc symmetric sol
  obtain ⟨hl, hx⟩ := jvp_multiplies e d.p.n bc.rows symmetric sol v hv
  have hb : ((d.jacBcAt bc symmetric sol).matvec v).length = d.p.n := by rw [matvec_len, hr]
  unfold ExtraTerm.hybridOp
  refine ⟨by simp [vadd, hb, hl], fun i hi => ?_⟩
  rw [vadd_getD _ _ (by rw [hb, hl]), hx i hi, C06_matvec _ hwf v i (by rw [hr]; exact hi), hc, ← Finset.sum_add_distrib]
  apply Finset.sum_congr rfl
  intro j hj
  rw [jacBcAt_stored h bc hbc hused symmetric sol i j hi (by simpa using hj), add_mul]

theorem hybridAdjointOp_getD {d : Discretization R α β} (h : DiscOK d) (bc : DirichletBC R) (hbc : CanonicalBC d.p.n bc)
    (hused : UsedBC d bc) (e : ExtraTerm R) (symmetric : Bool) (sol w : List R) (hw : w.length = d.p.n) :
    (e.hybridAdjointOp d bc.rows symmetric bc sol w).length = d.p.n ∧ ∀ j < d.p.n,
      (e.hybridAdjointOp d bc.rows symmetric bc sol w).getD j 0 = ∑ i ∈ Finset.range d.p.n,
        (storedElim d bc.rows symmetric sol i j + extraElim e bc.rows symmetric sol i j) * w.getD i 0 := by
  obtain ⟨hwf, hr, hc⟩ := jacBcAt_wf h bc hbc symmetric sol
  obtain ⟨hl, hx⟩ := vjp_multiplies e d.p.n bc.rows symmetric sol w hw
  have hb : ((d.jacBcAt bc symmetric sol).rmatvec w).length = d.p.n := by rw [rmatvec_len, hc]
  unfold ExtraTerm.hybridAdjointOp
  refine ⟨by simp [vadd, hb, hl], fun j hj => ?_⟩
  rw [vadd_getD _ _ (by rw [hb, hl]), hx j hj, C06_rmatvec _ hwf w j (by rw [hc]; exact hj), hr, ← Finset.sum_add_distrib]
  apply Finset.sum_congr rfl
  intro i hi
  rw [jacBcAt_stored h bc hbc hused symmetric sol i j (by simpa using hi) hj, add_mul]

/-- The assembled operators: the eliminated total tangent and its transpose. -/
theorem assembledOps_ok {d : Discretization R α β} (h : DiscOK d) (bc : DirichletBC R) (hbc : CanonicalBC d.p.n bc)
    (hused : UsedBC d bc) (e : ExtraTerm R) (symmetric : Bool) (hview : d.p.view = .full)
    (color : List ℕ → List ℕ → ℕ → ℕ → Asd.Coloring) (hcol : Colors color) (detected : List ℕ × List ℕ)
    (hdet : Detects e d.p.n bc.rows detected) (sol : List R) :
    ∃ J JT, e.assembledOps d bc.rows symmetric color detected bc sol = .ok (J, JT) ∧
      ∀ i < d.p.n, ∀ j < d.p.n,
        J.todense i j = elimEntry bc.rows symmetric (fun a b => tangentAt d sol a b + e.jac sol a b) i j ∧
        JT.todense j i = J.todense i j := by
  obtain ⟨hwf, hr, hc⟩ := jacBcAt_wf h bc hbc symmetric sol
  obtain ⟨Jx, hJx, his⟩ := C123_sparse_jacobian color hcol (some (detected.1, detected.2, d.p.n, d.p.n)) none d.p.n d.p.n
    (extraElim e bc.rows symmetric sol) (e.jvp d.p.n bc.rows symmetric sol) (e.vjp d.p.n bc.rows symmetric sol)
    (jvp_multiplies e d.p.n bc.rows symmetric sol) (vjp_multiplies e d.p.n bc.rows symmetric sol) (Or.inr ⟨rfl, detected.1, detected.2, rfl, hdet.length, hdet.rows_lt,
      hdet.cols_lt, by
        intro i hi j hj hne
        unfold extraElim at hne
        split_ifs at hne with h1 h2
        · exact absurd rfl hne
        · exact absurd rfl hne
        · exact hdet.covers sol i hi j hj h1 hne⟩)
  have hxc : Spec.CanonicalCSR Jx.numRows Jx.numCols Jx.indptr Jx.indices := by
    rw [his.rows, his.cols]; exact his.canonical
  obtain ⟨m, hm, -, hsum, -, htr⟩ := C42_merged_is_sum (d.jacBcAt bc symmetric sol) Jx hwf.pattern hxc hwf.data his.data
    (by rw [hr, his.rows]) (by rw [hc, his.cols])
  refine ⟨mergedMatrix m (d.jacBcAt bc symmetric sol).data Jx.data,
    (mergedMatrix m (d.jacBcAt bc symmetric sol).data Jx.data).transposeWithMaps m.tPerm m.tIndptr m.tIndices, ?_, ?_⟩
  · unfold ExtraTerm.assembledOps
    rw [hview]
    simp only [ne_eq, not_true_eq_false, if_false]
    rw [hJx]
    simp only [bind, Except.bind]
    have hm' : mergeCsrPatterns (ExtraTerm.csrPattern (d.jacBcAt bc symmetric sol)) (ExtraTerm.csrPattern Jx) = .ok m := hm
    rw [hm']
  · intro i hi j hj
    rw [hr, hc] at hsum htr
    rw [htr i hi j hj, hsum i hi j hj, jacBcAt_stored h bc hbc hused symmetric sol i j hi hj, storedElim_full hview,
      his.dense i hi j hj]
    exact ⟨elimEntry_add .., rfl⟩

/-- What a solver that does its job makes of the operators handed to it. -/
theorem direction_solves {d : Discretization R α β} (h : DiscOK d) (bc : DirichletBC R) (hbc : CanonicalBC d.p.n bc)
    (hused : UsedBC d bc) (e : ExtraTerm R) (symmetric direct : Bool) (hview : d.p.view = .full)
    (color : List ℕ → List ℕ → ℕ → ℕ → Asd.Coloring) (hcol : Colors color) (detected : List ℕ × List ℕ)
    (hdet : Detects e d.p.n bc.rows detected) (backend : Backend R)
    (sol : List R)
    (hsolve : ∀ op, e.operator d bc.rows symmetric direct color detected bc sol = .ok op →
      ∀ b x0, Spec.Solves .full d.p.n op b (backend op b x0)) :
    ∃ du, e.direction d bc.rows symmetric direct color detected backend bc sol = .ok du ∧ du.length = d.p.n ∧
      ∀ i < d.p.n, ∑ j ∈ Finset.range d.p.n,
        elimEntry bc.rows symmetric (fun a b => tangentAt d sol a b + e.jac sol a b) i j * du.getD j 0
          = (vneg (e.totalRes d bc.rows bc sol)).getD i 0 := by
  unfold ExtraTerm.direction
  cases direct with
  | true =>
    obtain ⟨J, JT, hok, hent⟩ := assembledOps_ok h bc hbc hused e symmetric hview color hcol detected hdet sol
    have hop : e.operator d bc.rows symmetric true color detected bc sol = .ok (.csr J) := by
      unfold ExtraTerm.operator
      rw [if_pos rfl, hok]
      rfl
    rw [hop]
    refine ⟨_, rfl, ?_⟩
    obtain ⟨hl, hx⟩ := hsolve _ hop (vneg (e.totalRes d bc.rows bc sol)) (List.replicate sol.length 0)
    refine ⟨hl, fun i hi => ?_⟩
    rw [← hx i hi]
    apply Finset.sum_congr rfl
    intro j hj
    simp only [Spec.completed]
    rw [(hent i hi j (by simpa using hj)).1]
  | false =>
    have hop : e.operator d bc.rows symmetric false color detected bc sol
        = .ok (.fn (e.hybridOp d bc.rows symmetric bc sol)) := rfl
    rw [hop]
    refine ⟨_, rfl, ?_⟩
    obtain ⟨hl, hx⟩ := hsolve _ hop (vneg (e.totalRes d bc.rows bc sol)) (List.replicate sol.length 0)
    refine ⟨hl, fun i hi => ?_⟩
    rw [← hx i hi, (hybridOp_getD h bc hbc hused e symmetric sol _ hl).2 i hi]
    apply Finset.sum_congr rfl
    intro j _
    rw [storedElim_full hview, elimEntry_add]

/-! ### C125 -/

theorem totalRes_getD {d : Discretization R α β} (h : DiscOK d) (bc : DirichletBC R) (hbc : CanonicalBC d.p.n bc)
    (e : ExtraTerm R) (hfit : Fits e d.p.n) (sol : List R) :
    (e.totalRes d bc.rows bc sol).length = d.p.n ∧
    (∀ k < bc.rows.length, (e.totalRes d bc.rows bc sol).getD (bc.rows.getD k 0) 0
      = sol.getD (bc.rows.getD k 0) 0 - bc.vals.getD k 0) ∧
    ∀ i < d.p.n, i ∉ bc.rows → (e.totalRes d bc.rows bc sol).getD i 0 = (d.residualAt sol).getD i 0 + (e.fn sol).getD i 0 := by
  obtain ⟨hl, hb, hf⟩ := C13_boundary_residual d.p.n bc hbc (d.residualAt sol) sol 1 (residualAt_length h sol)
  have hxl : (e.resBc bc.rows sol).length = d.p.n := by unfold ExtraTerm.resBc; rw [zeroAt_length, hfit]
  unfold ExtraTerm.totalRes Discretization.resBc
  refine ⟨by simp [vadd, hl, hxl], fun k hk => ?_, fun i hi hir => ?_⟩
  · have hm := rows_getD_mem bc (k := k) hk
    rw [vadd_getD _ _ (by rw [hl, hxl]), hb k hk]
    unfold ExtraTerm.resBc
    rw [zeroAt_getD _ _ _ (by rw [hfit]; exact hbc.lt _ hm), if_pos hm]
    ring
  · rw [vadd_getD _ _ (by rw [hl, hxl]), hf i hir]
    unfold ExtraTerm.resBc
    rw [zeroAt_getD _ _ _ (by rw [hfit]; exact hi), if_neg hir]

/-- **C125** (what convergence means). The residual the loops drive to zero vanishes exactly when the state has the
prescribed values and balances the problem's residual plus the extra term at every other unknown. -/
theorem C125_converged_means {d : Discretization R α β} (h : DiscOK d) (bc : DirichletBC R) (hbc : CanonicalBC d.p.n bc)
    (e : ExtraTerm R) (hfit : Fits e d.p.n) (sol : List R) :
    (∀ i < d.p.n, (e.totalRes d bc.rows bc sol).getD i 0 = 0) ↔
      Spec.MeetsBC bc sol ∧ ∀ i < d.p.n, i ∉ bc.rows → (d.residualAt sol).getD i 0 + (e.fn sol).getD i 0 = 0 := by
  obtain ⟨-, hb, hf⟩ := totalRes_getD h bc hbc e hfit sol
  constructor
  · intro h0
    refine ⟨fun k hk => ?_, fun i hi hir => by rw [← hf i hi hir]; exact h0 i hi⟩
    have := h0 _ (hbc.lt _ (rows_getD_mem bc (k := k) hk))
    rw [hb k hk] at this
    exact sub_eq_zero.mp this
  · rintro ⟨h1, h2⟩ i hi
    by_cases hir : i ∈ bc.rows
    · obtain ⟨k, hk, rfl⟩ := mem_rows_getD hbc hir
      rw [hb k hk, h1 k hk, sub_self]
    · rw [hf i hi hir, h2 i hi hir]

/-- A solution of the eliminated system is the exact Newton step. -/
theorem step_core {d : Discretization R α β} (h : DiscOK d) (bc : DirichletBC R) (hbc : CanonicalBC d.p.n bc)
    (e : ExtraTerm R) (hfit : Fits e d.p.n) (symmetric : Bool) (sol du : List R)
    (hx : ∀ i < d.p.n, ∑ j ∈ Finset.range d.p.n,
        elimEntry bc.rows symmetric (fun a b => tangentAt d sol a b + e.jac sol a b) i j * du.getD j 0
          = (vneg (e.totalRes d bc.rows bc sol)).getD i 0)
    (hstart : symmetric = true → Spec.MeetsBC bc sol) :
    (∀ k < bc.rows.length, sol.getD (bc.rows.getD k 0) 0 + du.getD (bc.rows.getD k 0) 0 = bc.vals.getD k 0) ∧
      ∀ i < d.p.n, i ∉ bc.rows → (d.residualAt sol).getD i 0 + (e.fn sol).getD i 0
        + ∑ j ∈ Finset.range d.p.n, (tangentAt d sol i j + e.jac sol i j) * du.getD j 0 = 0 := by
  obtain ⟨htl, hb, hf⟩ := totalRes_getD h bc hbc e hfit sol
  have hneg : ∀ i < d.p.n, (vneg (e.totalRes d bc.rows bc sol)).getD i 0 = -(e.totalRes d bc.rows bc sol).getD i 0 := by
    intro i hi
    unfold vneg
    rw [List.getD_eq_getElem _ _ (by simpa [htl] using hi), List.getElem_map, List.getD_eq_getElem _ _ (by omega)]
  have hdu : ∀ k < bc.rows.length, du.getD (bc.rows.getD k 0) 0 = bc.vals.getD k 0 - sol.getD (bc.rows.getD k 0) 0 := by
    intro k hk
    have hm := rows_getD_mem bc (k := k) hk
    have hlt := hbc.lt _ hm
    have := hx _ hlt
    rw [hneg _ hlt, hb k hk] at this
    unfold elimEntry at this
    simp only [if_pos hm, ite_mul, one_mul, zero_mul] at this
    rw [Finset.sum_ite_eq, if_pos (by simpa using hlt)] at this
    rw [this]; ring
  refine ⟨fun k hk => by rw [hdu k hk]; ring, fun i hi hir => ?_⟩
  have := hx i hi
  rw [hneg i hi, hf i hi hir] at this
  have hsame : ∑ j ∈ Finset.range d.p.n, (tangentAt d sol i j + e.jac sol i j) * du.getD j 0
      = ∑ j ∈ Finset.range d.p.n,
        elimEntry bc.rows symmetric (fun a b => tangentAt d sol a b + e.jac sol a b) i j * du.getD j 0 := by
    apply Finset.sum_congr rfl
    intro j hj
    unfold elimEntry
    rw [if_neg hir]
    split_ifs with hs
    · obtain ⟨k, hk, rfl⟩ := mem_rows_getD hbc hs.2
      rw [hdu k hk, hstart hs.1 k hk]
      ring
    · rfl
  rw [hsame, this]
  ring

/-- **C125** (the step). With full storage, a solver that solves the system it is given yields, on the product path and on
the assembled path alike, the exact Newton step of the problem with the extra term: the constrained unknowns move to the
prescribed values, and every other equation of problem plus extra term vanishes to first order. Under symmetric
elimination the iterate must already have the prescribed values. -/
theorem C125_newton_step_partial {d : Discretization R α β} (h : DiscOK d) (bc : DirichletBC R) (hbc : CanonicalBC d.p.n bc)
    (hused : UsedBC d bc) (e : ExtraTerm R) (hfit : Fits e d.p.n) (symmetric direct : Bool) (hview : d.p.view = .full)
    (color : List ℕ → List ℕ → ℕ → ℕ → Asd.Coloring) (hcol : Colors color) (detected : List ℕ × List ℕ)
    (hdet : Detects e d.p.n bc.rows detected) (backend : Backend R)
    (sol : List R)
    (hsolve : ∀ op, e.operator d bc.rows symmetric direct color detected bc sol = .ok op →
      ∀ b x0, Spec.Solves .full d.p.n op b (backend op b x0))
    (hstart : symmetric = true → Spec.MeetsBC bc sol) :
    ∃ du, e.direction d bc.rows symmetric direct color detected backend bc sol = .ok du ∧ du.length = d.p.n ∧
      (∀ k < bc.rows.length, sol.getD (bc.rows.getD k 0) 0 + du.getD (bc.rows.getD k 0) 0 = bc.vals.getD k 0) ∧
      ∀ i < d.p.n, i ∉ bc.rows → (d.residualAt sol).getD i 0 + (e.fn sol).getD i 0
        + ∑ j ∈ Finset.range d.p.n, (tangentAt d sol i j + e.jac sol i j) * du.getD j 0 = 0 := by
  obtain ⟨du, hok, hl, hx⟩ := direction_solves h bc hbc hused e symmetric direct hview color hcol detected hdet backend
    sol hsolve
  exact ⟨du, hok, hl, step_core h bc hbc e hfit symmetric sol du hx hstart⟩

/-- A solution of the transposed eliminated system, corrected at the constrained unknowns, solves the transposed system with
the columns kept. -/
theorem adjoint_core {d : Discretization R α β} (h : DiscOK d) (bc : DirichletBC R) (hbc : CanonicalBC d.p.n bc)
    (e : ExtraTerm R) (symmetric : Bool) (hview : d.p.view = .full) (sol v : List R) :
    ∀ x : List R, x.length = d.p.n →
      (∀ j < d.p.n, ∑ i ∈ Finset.range d.p.n,
        elimEntry bc.rows symmetric (fun a b => tangentAt d sol a b + e.jac sol a b) i j * x.getD i 0 = v.getD j 0) →
      let lam := if symmetric then e.correctAdjoint d bc.rows bc sol v x else x
      lam.length = d.p.n ∧ ∀ j < d.p.n, ∑ i ∈ Finset.range d.p.n,
        Spec.rowEliminated bc.rows (fun a b => tangentAt d sol a b + e.jac sol a b) i j * lam.getD i 0 = v.getD j 0 := by
  set K : ℕ → ℕ → R := fun a b => tangentAt d sol a b + e.jac sol a b with hK
  intro x hlen hx
  cases symmetric with
  | false =>
    refine ⟨hlen, fun j hj => ?_⟩
    rw [← hx j hj]
    apply Finset.sum_congr rfl
    intro i _
    simp [Spec.rowEliminated, elimEntry]
  | true =>
    have hnd : bc.rows.Nodup := hbc.sorted.imp (fun h => Nat.ne_of_lt h)
    simp only [if_true]
    unfold ExtraTerm.correctAdjoint
    simp only
    set lf := ExtraTerm.zeroAt bc.rows x with hlf
    have hlfl : lf.length = d.p.n := by rw [hlf, zeroAt_length, hlen]
    set ktw := (d.jacobianAt sol).rmatvec lf with hktw
    set xtw := e.vjp d.p.n bc.rows false sol lf with hxtw
    have hkget : ∀ j < d.p.n, ktw.getD j 0 + xtw.getD j 0
        = ∑ i ∈ Finset.range d.p.n, K i j * (if i ∈ bc.rows then 0 else x.getD i 0) := by
      intro j hj
      rw [hktw, jacobianAt_rmatvec h hview sol lf j hj, hxtw,
        (vjp_multiplies e d.p.n bc.rows false sol lf hlfl).2 j hj, ← Finset.sum_add_distrib]
      apply Finset.sum_congr rfl
      intro i hi
      rw [hlf, zeroAt_getD _ _ _ (by rw [hlen]; simpa using hi)]
      by_cases hir : i ∈ bc.rows
      · simp [hir]
      · simp [hir, extraElim, hK, add_mul]
    set corr := List.zipWith (fun a b : R => a - b) (gather 0 v bc.rows) (vadd (gather 0 ktw bc.rows) (gather 0 xtw bc.rows))
      with hcorr
    set lam := scatterSet x bc.rows corr with hlam
    have hlamfree : ∀ i, i ∉ bc.rows → lam.getD i 0 = x.getD i 0 :=
      fun i hi => scatterSet_getD_not_mem _ _ _ _ _ hi
    have hlambc : ∀ j ∈ bc.rows, lam.getD j 0 = v.getD j 0
        - ∑ i ∈ Finset.range d.p.n, K i j * (if i ∈ bc.rows then 0 else x.getD i 0) := by
      intro j hj
      have hlt := hbc.lt j hj
      obtain ⟨k, hkk, e'⟩ := mem_rows_getD hbc hj
      rw [← hkget j hlt]
      have := scatterSet_getD_nodup 0 x bc.rows corr hnd k hkk (by simp [hcorr, vadd, gather, hkk]) (by rw [e']; omega)
      rw [e'] at this
      rw [hlam, this, hcorr, List.getD_eq_getElem _ _ (by simp [vadd, gather, hkk]), List.getElem_zipWith]
      simp only [vadd, gather, List.getElem_map, List.getElem_zipWith]
      rw [List.getD_eq_getElem _ _ hkk] at e'
      rw [e']
    refine ⟨by rw [hlam, scatterSet_length, hlen], fun j hj => ?_⟩
    have hsplit : ∀ i ∈ Finset.range d.p.n, Spec.rowEliminated bc.rows K i j * lam.getD i 0
        = (if i = j then (if j ∈ bc.rows then lam.getD j 0 else 0) else 0)
          + K i j * (if i ∈ bc.rows then 0 else x.getD i 0) := by
      intro i _
      unfold Spec.rowEliminated
      by_cases h1 : i ∈ bc.rows
      · by_cases h2 : i = j
        · subst h2; simp [h1]
        · simp [h1, h2]
      · rw [hlamfree i h1]
        by_cases h2 : i = j
        · subst h2; simp [h1]
        · simp [h1, h2]
    rw [Finset.sum_congr rfl hsplit, Finset.sum_add_distrib, Finset.sum_ite_eq', if_pos (by simpa using hj)]
    by_cases hjr : j ∈ bc.rows
    · rw [if_pos hjr, hlambc j hjr]
      ring
    · rw [if_neg hjr, zero_add, ← hx j hj]
      apply Finset.sum_congr rfl
      intro i _
      unfold elimEntry
      by_cases h1 : i ∈ bc.rows
      · rw [if_pos h1, if_pos h1, if_neg (fun e : i = j => hjr (e ▸ h1))]; simp
      · rw [if_neg h1, if_neg h1, if_neg (by simp [hjr])]

/-- **C125** (the reverse rule). With full storage, the vector either reverse rule computes solves the transposed system of
the boundary-modified total residual: identity rows at constrained unknowns, the sum of the two tangents elsewhere,
columns kept, for both eliminations. -/
theorem C125_adjoint_partial {d : Discretization R α β} (h : DiscOK d) (bc : DirichletBC R) (hbc : CanonicalBC d.p.n bc)
    (hused : UsedBC d bc) (e : ExtraTerm R) (symmetric direct : Bool) (hview : d.p.view = .full)
    (color : List ℕ → List ℕ → ℕ → ℕ → Asd.Coloring) (hcol : Colors color) (detected : List ℕ × List ℕ)
    (hdet : Detects e d.p.n bc.rows detected) (backend : Backend R)
    (sol v : List R)
    (hsolve : ∀ op, e.adjointOperator d bc.rows symmetric direct color detected bc sol = .ok op →
      ∀ b x0, Spec.Solves .full d.p.n op b (backend op b x0)) :
    ∃ lam, e.adjoint d bc.rows symmetric direct color detected backend bc sol v = .ok lam ∧ lam.length = d.p.n ∧
      ∀ j < d.p.n, ∑ i ∈ Finset.range d.p.n,
        Spec.rowEliminated bc.rows (fun a b => tangentAt d sol a b + e.jac sol a b) i j * lam.getD i 0 = v.getD j 0 := by
  have core := adjoint_core h bc hbc e symmetric hview sol v
  unfold ExtraTerm.adjoint
  cases direct with
  | true =>
    obtain ⟨J, JT, hok, hent⟩ := assembledOps_ok h bc hbc hused e symmetric hview color hcol detected hdet sol
    have hop : e.adjointOperator d bc.rows symmetric true color detected bc sol = .ok (.csr JT) := by
      unfold ExtraTerm.adjointOperator
      rw [if_pos rfl, hok]
      rfl
    rw [hop]
    have hs := hsolve _ hop v (adjointX0 bc v)
    refine ⟨_, rfl, core _ hs.1 fun j hj => ?_⟩
    rw [← hs.2 j hj]
    apply Finset.sum_congr rfl
    intro i hi
    simp only [Spec.completed]
    rw [(hent i (by simpa using hi) j hj).2, (hent i (by simpa using hi) j hj).1]
  | false =>
    have hop : e.adjointOperator d bc.rows symmetric false color detected bc sol
        = .ok (.fn (e.hybridAdjointOp d bc.rows symmetric bc sol)) := rfl
    rw [hop]
    have hs := hsolve _ hop v (adjointX0 bc v)
    refine ⟨_, rfl, core _ hs.1 fun j hj => ?_⟩
    rw [← hs.2 j hj, (hybridAdjointOp_getD h bc hbc hused e symmetric sol _ hs.1).2 j hj]
    apply Finset.sum_congr rfl
    intro i _
    rw [storedElim_full hview, elimEntry_add]

/-- **C125**: the assembled path refuses triangular storage. -/
theorem C125_assembled_triangular_refused (d : Discretization R α β) (bc : DirichletBC R) (e : ExtraTerm R)
    (symmetric : Bool) (color : List ℕ → List ℕ → ℕ → ℕ → Asd.Coloring) (detected : List ℕ × List ℕ) (backend : Backend R)
    (rows : List ℕ) (sol v : List R) (hview : d.p.view ≠ .full) :
    e.direction d rows symmetric true color detected backend bc sol = .error .valueError ∧
      e.adjoint d rows symmetric true color detected backend bc sol v = .error .valueError := by
  have : e.assembledOps d rows symmetric color detected bc sol = .error .valueError := by
    unfold ExtraTerm.assembledOps
    rw [if_pos hview]
  unfold ExtraTerm.direction ExtraTerm.adjoint ExtraTerm.operator ExtraTerm.adjointOperator
  rw [if_pos rfl, if_pos rfl, this]
  exact ⟨rfl, rfl⟩

end

/-! ### The two-bar example with an extra term -/

/-- An extra force on row `1` proportional to the held unknown, and a constant one on the held row. -/
def exExtra : ExtraTerm ℤ where
  fn := fun sol => [7, sol.getD 0 0, 0]
  jac := fun _ i j => if i = 1 ∧ j = 0 then 1 else 0

theorem exExtra_fits (view : MatrixView) : Fits exExtra (exD view).p.n := by
  have hn : (exD view).p.n = 3 := by cases view <;> rfl
  intro sol
  rw [hn]; rfl

theorem exExtra_detected (view : MatrixView) : Detects exExtra (exD view).p.n exHold.rows ([1], [0]) := by
  have hn : (exD view).p.n = 3 := by cases view <;> rfl
  rw [hn]
  refine ⟨rfl, by simp, by simp, ?_⟩
  intro sol i hi j hj hr hne
  simp only [exExtra] at hne
  split_ifs at hne with h
  · simp [h.1, h.2]
  · exact absurd rfl hne

/-- The eliminated total tangent of the example: the extra coupling reaches only the held column. -/
theorem exExtra_elim (view : MatrixView) (sol : List ℤ) : ∀ i < 3, ∀ j < 3,
    elimEntry [0] true (fun a b => tangentAt (exD view) sol a b + exExtra.jac sol a b) i j
      = ([[1, 0, 0], [0, 2, -1], [0, -1, 1]].getD i []).getD j 0 := by
  intro i hi j hj
  unfold elimEntry exExtra
  simp only
  rw [exD_entries view sol i hi j hj]
  revert i j
  decide

theorem exExtra_backend (b : List ℤ) (E : ℕ → ℕ → ℤ)
    (hE : ∀ i < 3, ∀ j < 3, E i j = ([[1, 0, 0], [0, 2, -1], [0, -1, 1]].getD i []).getD j 0) (op : Operator ℤ) (x0 : List ℤ) :
    ∀ i < 3, ∑ j ∈ Finset.range 3, E i j * (exBackend op b x0).getD j 0 = b.getD i 0 := by
  intro i hi
  rw [Finset.sum_congr rfl (fun j hj => by rw [hE i hi j (by simpa using hj)])]
  unfold exBackend
  interval_cases i <;> simp [Finset.sum_range_succ] <;> ring

/-- The hypotheses of `C125_newton_step_partial` are met by the example, on both paths. -/
example (direct : Bool) : ∃ du, exExtra.direction (exD .full) exHold.rows true direct eachAlone ([1], [0]) exBackend
    exHold [0, 5, 6] = .ok du ∧ du.length = 3 := by
  have hsolve : ∀ op, exExtra.operator (exD .full) exHold.rows true direct eachAlone ([1], [0]) exHold [0, 5, 6] = .ok op →
      ∀ b x0, Spec.Solves .full (exD .full).p.n op b (exBackend op b x0) := by
    intro op hop b x0
    cases direct with
    | true =>
      obtain ⟨J, JT, hok, hent⟩ := assembledOps_ok (exD_ok .full) exHold (exHold_canonical .full) (exHold_used .full) exExtra
        true rfl _ eachAlone_colors _ (exExtra_detected .full) [0, 5, 6]
      unfold ExtraTerm.operator at hop
      rw [if_pos rfl, hok] at hop
      cases hop
      refine ⟨rfl, fun i hi => ?_⟩
      rw [← exExtra_backend b (fun i j => J.todense i j) (fun i hi j hj => by
        rw [(hent i hi j hj).1]; exact exExtra_elim .full _ i hi j hj) (.csr J) x0 i hi]
      rfl
    | false =>
      cases hop
      refine ⟨rfl, fun i hi => ?_⟩
      rw [(hybridOp_getD (exD_ok .full) exHold (exHold_canonical .full) (exHold_used .full) exExtra true [0, 5, 6] _ rfl).2 i hi]
      refine exExtra_backend b (fun i j => storedElim (exD .full) exHold.rows true [0, 5, 6] i j
        + extraElim exExtra exHold.rows true [0, 5, 6] i j) (fun i hi j hj => ?_) _ x0 i hi
      rw [storedElim_full rfl, elimEntry_add]
      exact exExtra_elim .full _ i hi j hj
  obtain ⟨du, h1, h2, -⟩ := C125_newton_step_partial (exD_ok .full) exHold (exHold_canonical .full) (exHold_used .full) exExtra
    (exExtra_fits .full) true direct rfl _ eachAlone_colors _ (exExtra_detected .full) exBackend [0, 5, 6] hsolve
    (fun _ k hk => by
      have : k = 0 := by simpa [exHold] using hk
      subst this; rfl)
  exact ⟨du, h1, h2⟩

/-- The hypotheses of `C125_adjoint_partial` are met by the example, on both paths. -/
example (direct : Bool) (v : List ℤ) : ∃ lam, exExtra.adjoint (exD .full) exHold.rows true direct eachAlone ([1], [0]) exBackend
    exHold [0, 5, 6] v = .ok lam ∧ lam.length = 3 := by
  have hsym : ∀ i < 3, ∀ j < 3, ([[1, 0, 0], [0, 2, -1], [0, -1, 1]].getD i []).getD j (0 : ℤ)
      = ([[1, 0, 0], [0, 2, -1], [0, -1, 1]].getD j []).getD i 0 := by decide
  have hsolve : ∀ op, exExtra.adjointOperator (exD .full) exHold.rows true direct eachAlone ([1], [0]) exHold [0, 5, 6] = .ok op →
      ∀ b x0, Spec.Solves .full (exD .full).p.n op b (exBackend op b x0) := by
    intro op hop b x0
    cases direct with
    | true =>
      obtain ⟨J, JT, hok, hent⟩ := assembledOps_ok (exD_ok .full) exHold (exHold_canonical .full) (exHold_used .full) exExtra
        true rfl _ eachAlone_colors _ (exExtra_detected .full) [0, 5, 6]
      unfold ExtraTerm.adjointOperator at hop
      rw [if_pos rfl, hok] at hop
      cases hop
      refine ⟨rfl, fun i hi => ?_⟩
      rw [← exExtra_backend b (fun i j => JT.todense i j) (fun i hi j hj => by
        rw [(hent j hj i hi).2, (hent j hj i hi).1, hsym i hi j hj]; exact exExtra_elim .full _ j hj i hi) (.csr JT) x0 i hi]
      rfl
    | false =>
      cases hop
      refine ⟨rfl, fun j hj => ?_⟩
      rw [(hybridAdjointOp_getD (exD_ok .full) exHold (exHold_canonical .full) (exHold_used .full) exExtra true [0, 5, 6] _ rfl).2
        j hj]
      refine exExtra_backend b (fun j i => storedElim (exD .full) exHold.rows true [0, 5, 6] i j
        + extraElim exExtra exHold.rows true [0, 5, 6] i j) (fun i hi j hj => ?_) _ x0 j hj
      rw [storedElim_full rfl, elimEntry_add, hsym i hi j hj]
      exact exExtra_elim .full _ j hj i hi
  obtain ⟨lam, h1, h2, -⟩ := C125_adjoint_partial (exD_ok .full) exHold (exHold_canonical .full) (exHold_used .full) exExtra
    true direct rfl _ eachAlone_colors _ (exExtra_detected .full) exBackend [0, 5, 6] v hsolve
  exact ⟨lam, h1, h2⟩

/-- **C125** (violation). With triangular storage the product path is not refused, and multiplies by the stored triangle:
although problem and extra term are symmetric, the product is not the one with the tangent. -/
theorem C125_hybrid_triangular_wrong :
    ∃ (d : Discretization ℤ ℤ ℤ) (bc : DirichletBC ℤ) (e : ExtraTerm ℤ) (sol v : List ℤ),
      DiscOK d ∧ CanonicalBC d.p.n bc ∧ UsedBC d bc ∧ d.p.view = .upper ∧ v.length = d.p.n ∧ Spec.MeetsBC bc sol ∧
      (∀ i < d.p.n, ∀ j < d.p.n, tangentAt d sol i j = tangentAt d sol j i) ∧ (∀ i j, e.jac sol i j = e.jac sol j i) ∧
      (∀ (color) (detected), e.operator d bc.rows true false color detected bc sol
        = .ok (.fn (e.hybridOp d bc.rows true bc sol))) ∧
      ∃ i < d.p.n, (e.hybridOp d bc.rows true bc sol v).getD i 0 ≠ ∑ j ∈ Finset.range d.p.n,
        elimEntry bc.rows true (fun a b => tangentAt d sol a b + e.jac sol a b) i j * v.getD j 0 := by
  have hn : (exD .upper).p.n = 3 := rfl
  refine ⟨exD .upper, exHold, ⟨fun _ => [0, 0, 0], fun _ _ _ => 0⟩, [0, 5, 6], [0, 1, 0], exD_ok _, exHold_canonical _,
    exHold_used _, rfl, rfl, ?_, exD_sym _ _, fun _ _ => rfl, fun _ _ => rfl, 2, by decide, ?_⟩
  · intro k hk
    have : k = 0 := by simpa [exHold] using hk
    subst this; rfl
  · rw [(hybridOp_getD (exD_ok .upper) exHold (exHold_canonical .upper) (exHold_used .upper) _ true [0, 5, 6] [0, 1, 0] rfl).2 2
      (by decide), hn]
    have he := exD_entries .upper [0, 5, 6]
    simp only [Finset.sum_range_succ, Finset.sum_range_zero, storedElim, extraElim, elimEntry, exHold]
    rw [he 2 (by decide) 0 (by decide), he 2 (by decide) 1 (by decide), he 2 (by decide) 2 (by decide)]
    decide

end Verif.Props
