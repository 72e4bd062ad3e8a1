import Verif.Props.Reduced
import Verif.Props.Extra
import Verif.Model.ReducedAsm
import Mathlib.Analysis.Calculus.Deriv.Slope
import Mathlib.Analysis.Calculus.Deriv.Add
import Mathlib.Analysis.Calculus.Deriv.Mul

/-!
# The reduced solver with an assembled operator, and its gradient (C127)
-/

namespace Verif.Props.Spec.Reduced

open Verif.Model
open scoped BigOperators

/-- Entry `(a, i)` of a prolongation matrix: the sum of the stored values there. -/
def entry {R : Type} [CommRing R] (P : Coo R) (a i : ℕ) : R :=
  ((P.entries.filter fun e => e.1 == a && e.2.1 == (i : ℤ)).map (·.2.2)).sum

/-- The stored entries lie in the shape of the matrix. -/
def InRange {R : Type} (P : Coo R) : Prop := ∀ e ∈ P.entries, e.1 < P.rows ∧ 0 ≤ e.2.1 ∧ e.2.1 < P.cols

/-- The colouring library keeps its contract in the mode the solver asks for. -/
def ForwardColors (color : List ℕ → List ℕ → ℕ → ℕ → Model.Asd.Coloring) : Prop :=
  Spec.Asd.Colors color ∧ ∀ rows cols nr nc, (color rows cols nr nc).forward = true

/-- Entry `(i, j)` of the reduced operator: `Pᵀ J P` with the tangent after symmetric elimination of the constrained
DOFs. -/
def operatorEntry {R : Type} [CommRing R] (n : ℕ) (P : Coo R) (rows : List ℕ) (K : ℕ → ℕ → R) (i j : ℕ) : R :=
  ∑ a ∈ Finset.range n, ∑ b ∈ Finset.range n, entry P a i *
    (if a ∈ rows then (if a = b then 1 else 0) else if b ∈ rows then 0 else K a b) * entry P b j

end Verif.Props.Spec.Reduced

namespace Verif.Props

open Verif.Model Spec.Asd Spec.Reduced
open scoped BigOperators

section
variable {R : Type} [CommRing R] {α β : Type*}

/-! ### Products with a prolongation -/

theorem coo_row (v : List R) (m a : ℕ) : ∀ L : List (ℕ × ℤ × R), (∀ e ∈ L, 0 ≤ e.2.1 ∧ e.2.1 < m) →
    ((L.filter fun e => e.1 == a).map fun e => if 0 ≤ e.2.1 then e.2.2 * v.getD e.2.1.toNat 0 else 0).sum
      = ∑ j ∈ Finset.range m, ((L.filter fun e => e.1 == a && e.2.1 == (j : ℤ)).map (·.2.2)).sum * v.getD j 0 := by
  intro L
  induction L with
  | nil => intro _; simp
  | cons e L ih =>
    intro h
    have ih' := ih fun x hx => h x (List.mem_cons_of_mem _ hx)
    obtain ⟨h0, h1⟩ := h e List.mem_cons_self
    by_cases ha : e.1 = a
    · rw [List.filter_cons_of_pos (by simpa using ha), List.map_cons, List.sum_cons, ih', if_pos h0]
      have : ∀ j ∈ Finset.range m, (((e :: L).filter fun e => e.1 == a && e.2.1 == (j : ℤ)).map (·.2.2)).sum * v.getD j 0
          = (if j = e.2.1.toNat then e.2.2 * v.getD j 0 else 0)
            + ((L.filter fun e => e.1 == a && e.2.1 == (j : ℤ)).map (·.2.2)).sum * v.getD j 0 := by
        intro j _
        by_cases hj : j = e.2.1.toNat
        · rw [List.filter_cons_of_pos (by simp [ha]; omega), List.map_cons, List.sum_cons, if_pos hj, add_mul]
        · rw [List.filter_cons_of_neg (by simp [ha]; omega), if_neg hj, zero_add]
      rw [Finset.sum_congr rfl this, Finset.sum_add_distrib, Finset.sum_ite_eq', if_pos (by rw [Finset.mem_range]; omega)]
    · rw [List.filter_cons_of_neg (by simpa using ha), ih']
      refine Finset.sum_congr rfl fun j _ => ?_
      rw [List.filter_cons_of_neg (by simp [ha])]

theorem coo_col (w : List R) (n c : ℕ) : ∀ L : List (ℕ × ℤ × R), (∀ e ∈ L, e.1 < n) →
    ((L.filter fun e => e.2.1 == (c : ℤ)).map fun e => e.2.2 * w.getD e.1 0).sum
      = ∑ a ∈ Finset.range n, ((L.filter fun e => e.1 == a && e.2.1 == (c : ℤ)).map (·.2.2)).sum * w.getD a 0 := by
  intro L
  induction L with
  | nil => intro _; simp
  | cons e L ih =>
    intro h
    have ih' := ih fun x hx => h x (List.mem_cons_of_mem _ hx)
    have h1 := h e List.mem_cons_self
    by_cases hc : e.2.1 = (c : ℤ)
    · rw [List.filter_cons_of_pos (by simpa using hc), List.map_cons, List.sum_cons, ih']
      have : ∀ a ∈ Finset.range n, (((e :: L).filter fun e => e.1 == a && e.2.1 == (c : ℤ)).map (·.2.2)).sum * w.getD a 0
          = (if a = e.1 then e.2.2 * w.getD a 0 else 0)
            + ((L.filter fun e => e.1 == a && e.2.1 == (c : ℤ)).map (·.2.2)).sum * w.getD a 0 := by
        intro a _
        by_cases ha : a = e.1
        · rw [List.filter_cons_of_pos (by simp [ha, hc]), List.map_cons, List.sum_cons, if_pos ha, add_mul]
        · rw [List.filter_cons_of_neg (by simp [hc]; omega), if_neg ha, zero_add]
      rw [Finset.sum_congr rfl this, Finset.sum_add_distrib, Finset.sum_ite_eq', if_pos (by rw [Finset.mem_range]; omega)]
    · rw [List.filter_cons_of_neg (by simpa using hc), ih']
      refine Finset.sum_congr rfl fun j _ => ?_
      rw [List.filter_cons_of_neg (by simp [hc])]

theorem coo_multiplies {P : Coo R} (h : InRange P) : Multiplies P.rows P.cols (entry P) P.matvec := by
  intro v _
  unfold Coo.matvec
  refine ⟨by simp, fun i hi => ?_⟩
  rw [range_map_getD _ hi]
  exact coo_row v P.cols i P.entries fun e he => (h e he).2

theorem coo_rmultiplies {P : Coo R} (h : InRange P) : Multiplies P.cols P.rows (fun i a => entry P a i) P.rmatvec := by
  intro w _
  unfold Coo.rmatvec
  refine ⟨by simp, fun i hi => ?_⟩
  rw [range_map_getD _ hi]
  exact coo_col w P.rows i P.entries fun e he => (h e he).1

theorem coo_pattern_inShape {P : Coo R} (h : InRange P) : InShape P.pattern := by
  intro e he
  unfold Coo.pattern at he ⊢
  obtain ⟨x, hx, rfl⟩ := List.mem_map.1 he
  have := h x hx
  exact ⟨this.1, by simp only; omega⟩

theorem coo_within {P : Coo R} (h : InRange P) : Within P.rows P.cols (entry P) (Has P.pattern) := by
  intro a _ i _ hne
  unfold entry at hne
  by_contra hno
  apply hne
  rw [List.filter_eq_nil_iff.2]
  · rfl
  · intro e he hcon
    simp only [Bool.and_eq_true, beq_iff_eq] at hcon
    apply hno
    refine ⟨(e.1, e.2.1.toNat, true), List.mem_map.2 ⟨e, he, rfl⟩, hcon.1, ?_, rfl⟩
    simp only
    omega

/-! ### The connectivity pattern -/

theorem todense_ne_zero {A : CSRMatrix R} {i j : ℕ} (h : A.todense i j ≠ 0) : (i, j) ∈ A.rowOfSlot.zip A.indices := by
  unfold CSRMatrix.todense at h
  split_ifs at h with hr
  · by_contra hno
    apply h
    rw [List.filter_eq_nil_iff.2]
    · rfl
    · intro e he hcon
      rw [beq_iff_eq] at hcon
      apply hno
      rw [← hcon]
      exact List.of_mem_zip he |>.1
  · exact absurd rfl h

theorem ptr_rows_lt (ptr : List ℕ) : ∀ r ∈ repeatByPtr ptr, r < ptr.length - 1 := by
  intro r hr
  simp only [repeatByPtr, List.mem_flatten, List.mem_map, List.mem_range] at hr
  obtain ⟨l, ⟨q, hq, rfl⟩, hr⟩ := hr
  rw [List.eq_of_mem_replicate hr]
  exact hq

theorem conn_entries (rows indices : List ℕ) :
    ((rows.zip indices).zipWith (fun rc (v : Bool) => (rc.1, rc.2, v)) (indices.map fun _ => true))
      = (rows.zip indices).map fun rc => (rc.1, rc.2, true) := by
  apply List.ext_getElem
  · simp
  · intro k h1 h2
    simp

/-- The tangent after symmetric elimination fits the connectivity pattern. -/
theorem jac_within {d : Discretization R α β} (h : DiscOK d) (hview : d.p.view = .full) (bc : DirichletBC R)
    (hbc : CanonicalBC d.p.n bc) (hused : UsedBC d bc) :
    ∃ conn, Asd.connectivityPattern (decide (d.p.view = .full)) d.p.n d.p.maps.indptr d.p.maps.indices = .ok conn ∧
      (Asd.storedOf conn).nr = d.p.n ∧ (Asd.storedOf conn).nc = d.p.n ∧ InShape (Asd.storedOf conn) ∧
      ∀ sol, Within d.p.n d.p.n (elimEntry bc.rows true (tangentAt d sol)) (Has (Asd.storedOf conn)) := by
  have hcan := C02_pattern_canonical d.p h.wf
  have hJ := fun sol => jacobianAt_hasPattern h sol
  have hw : ∀ sol, ∀ i < d.p.n, ∀ j < d.p.n, elimEntry bc.rows true (tangentAt d sol) i j ≠ 0 →
      (i, j) ∈ (repeatByPtr d.p.maps.indptr).zip d.p.maps.indices := by
    intro sol i hi j hj hne
    have e := jacBcAt_stored h bc hbc hused true sol i j hi hj
    rw [storedElim_full hview] at e
    rw [← e] at hne
    have := todense_ne_zero hne
    unfold CSRMatrix.rowOfSlot Discretization.jacBcAt jacBc CSRMatrix.withData at this
    simp only at this
    rw [(hJ sol).indptr, (hJ sol).indices] at this
    exact this
  refine ⟨_, by rw [Asd.connectivityPattern, if_pos (by simpa using hview)], rfl, rfl, ?_, ?_⟩
  all_goals
    generalize d.p.maps.indptr = indptr at hcan hw
    generalize d.p.maps.indices = indices at hcan hw
    generalize d.p.n = n at hcan hw
  · intro e he
    unfold Asd.storedOf Asd.cooRows at he ⊢
    simp only at he ⊢
    rw [conn_entries] at he
    obtain ⟨x, hx, rfl⟩ := List.mem_map.1 he
    have hx' := List.of_mem_zip (a := x.1) (b := x.2) hx
    refine ⟨?_, hcan.cols_lt _ hx'.2⟩
    have := ptr_rows_lt indptr _ hx'.1
    rw [hcan.ptr_length] at this
    exact this
  · intro sol i hi j hj hne
    refine ⟨(i, j, true), ?_, rfl, rfl, rfl⟩
    unfold Asd.storedOf Asd.cooRows
    simp only
    rw [conn_entries]
    exact List.mem_map.2 ⟨(i, j), hw sol i hi j hj hne, rfl⟩

/-! ### The operator -/

theorem matfreeAt_length {d : Discretization R α β} (h : DiscOK d) (bc : DirichletBC R) (hbc : CanonicalBC d.p.n bc)
    (symmetric : Bool) (sol v : List R) (hv : v.length = d.p.n) : (d.matfreeAt bc symmetric sol v).length = d.p.n := by
  have hs := h.shapes sol
  have hlenK : ∀ x, (residualJvp d.p d.kv d.kf (d.zv, []) (d.zf, []) (cellItems d.p d.cellsIn sol)
    (faceItems d.p d.facesIn sol) d.batch x).length = d.p.n := by
    intro x
    unfold residualJvp
    rw [C04_residual_is_scatter_add d.p _ _ _ _ _ _ _ h.wf
      (items_shapes d.p _ _ _ _ (localMul d.p.ndof) (fun _ _ => by simp [localMul]) hs x) h.batch]
    simp
  unfold Discretization.matfreeAt matfreeMatvec
  simp [hlenK, hv, hbc.maskLength]

theorem matfree_multiplies {d : Discretization R α β} (h : DiscOK d) (bc : DirichletBC R) (hbc : CanonicalBC d.p.n bc)
    (sol : List R) : Multiplies d.p.n d.p.n (elimEntry bc.rows true (tangentAt d sol)) (d.matfreeAt bc true sol) := by
  intro v hv
  have hg := matfreeAt_getD h bc hbc true sol v hv
  refine ⟨matfreeAt_length h bc hbc true sol v hv, fun i hi => ?_⟩
  rw [hg i hi]
  unfold elimEntry
  by_cases hir : i ∈ bc.rows
  · simp [hir, hi]
  · simp [hir]

/-- A product by the transposed matrix, entry by entry. -/
def denseT (n m : ℕ) (A : ℕ → ℕ → R) (w : List R) : List R :=
  (List.range m).map fun j => ∑ i ∈ Finset.range n, A i j * w.getD i 0

theorem denseT_multiplies (n m : ℕ) (A : ℕ → ℕ → R) : Multiplies m n (fun j i => A i j) (denseT n m A) := by
  intro w _
  unfold denseT
  exact ⟨by simp, fun i hi => range_map_getD _ hi⟩

theorem operatorAssembler_fwd {color : List ℕ → List ℕ → ℕ → ℕ → Asd.Coloring}
    (hf : ∀ rows cols nr nc, (color rows cols nr nc).forward = true) (q : StoredPattern) (mv r1 r2 : List R → List R) :
    Asd.operatorAssembler color q mv r1 = Asd.operatorAssembler color q mv r2 := by
  unfold Asd.operatorAssembler Asd.csrProducer Asd.Coloring.compressed
  simp only [hf, if_true]

theorem operatorEntry_eq {n : ℕ} (P : Coo R) (rows : List ℕ) (K : ℕ → ℕ → R) (i j : ℕ) :
    operatorEntry n P rows K i j = galerkin n (entry P) (elimEntry rows true K) i j := by
  unfold operatorEntry galerkin elimEntry
  simp

/-- The reduced product multiplies by `PᵀJP`. -/
theorem reduced_multiplies {d : Discretization R α β} (h : DiscOK d) {P : Coo R} (hP : InRange P) (hn : P.rows = d.p.n)
    (bc : DirichletBC R) (hbc : CanonicalBC d.p.n bc) (sol : List R) :
    Multiplies P.cols P.cols (operatorEntry d.p.n P bc.rows (tangentAt d sol))
      (fun v => P.rmatvec (d.matfreeAt bc true sol (P.matvec v))) := by
  have h1 := coo_multiplies hP
  have h2 := coo_rmultiplies hP
  rw [hn] at h1 h2
  have m := multiplies_comp h2 (multiplies_comp (matfree_multiplies h bc hbc sol) h1)
  have e : (fun i j => ∑ k ∈ Finset.range d.p.n, entry P k i *
      ∑ b ∈ Finset.range d.p.n, elimEntry bc.rows true (tangentAt d sol) k b * entry P b j)
      = operatorEntry d.p.n P bc.rows (tangentAt d sol) := by
    funext i j
    rw [operatorEntry_eq]
    unfold galerkin
    refine Finset.sum_congr rfl fun a _ => ?_
    rw [Finset.mul_sum]
    exact Finset.sum_congr rfl fun b _ => by ring
  rw [← e]
  exact m

/-- C127: the assembled reduced operator is exactly `PᵀJP`, at every state, for every prolongation (tied copies, rotations)
and every condition on used DOFs. -/
theorem C127_operator {d : Discretization R α β} (h : DiscOK d) (hview : d.p.view = .full)
    (color : List ℕ → List ℕ → ℕ → ℕ → Asd.Coloring) (hcol : ForwardColors color) (P : Coo R) (hP : InRange P)
    (hn : P.rows = d.p.n) (bc0 bc : DirichletBC R) (hbc : CanonicalBC d.p.n bc) (hused : UsedBC d bc)
    (hval : badBcRows P bc0.rows = []) (fwd adj : Bool) (hasm : (fwd || adj) = true) (sol : List R) :
    ∃ pat M, createReducedA d P bc0 fwd adj = .ok pat ∧ sideOperator d color P pat true bc sol = .ok (.csr M) ∧
      Is M P.cols P.cols (operatorEntry d.p.n P bc.rows (tangentAt d sol)) := by
  obtain ⟨conn, c1, c2, c3, c4, c5⟩ := jac_within h hview bc hbc hused
  have hPs := coo_pattern_inShape hP
  have hPw := coo_within hP
  have hm1 := coo_multiplies hP
  have hm2 := coo_rmultiplies hP
  have e1 : P.pattern.nr = P.rows := rfl
  have e2 : P.pattern.nc = P.cols := rfl
  have h5 := c5 sol
  have h3 := matfree_multiplies h bc hbc sol
  rw [← hn] at h5 h3
  obtain ⟨Q, M, q1, q2, q3, -⟩ := C123_reduced_operator color hcol.1 P.pattern (Asd.storedOf conn) hPs c4
    (by rw [e1, hn, c2]) (by rw [c3, e1, hn]) (entry P) (elimEntry bc.rows true (tangentAt d sol)) hPw h5
    P.matvec P.rmatvec (d.matfreeAt bc true sol) (denseT P.rows P.rows (elimEntry bc.rows true (tangentAt d sol)))
    hm1 hm2 h3 (denseT_multiplies _ _ _)
  refine ⟨some Q, M, ?_, ?_, ?_⟩
  · unfold createReducedA reducedPattern
    rw [if_neg (not_not.2 hval), if_pos hasm, c1]
    simp only [bind, Except.bind, q1, Except.map]
  · unfold sideOperator
    simp only
    rw [operatorAssembler_fwd hcol.2 _ _ _ (fun v => P.rmatvec (denseT P.rows P.rows (elimEntry bc.rows true (tangentAt d sol)) (P.matvec v))), q2]
    rfl
  · have : operatorEntry d.p.n P bc.rows (tangentAt d sol) = galerkin P.pattern.nr (entry P) (elimEntry bc.rows true (tangentAt d sol)) := by
      funext i j
      rw [operatorEntry_eq, e1, hn]
    rw [this]
    exact q3

/-- C127: assembled reduced operators need full storage; with triangular storage construction fails. -/
theorem C127_triangular_refused {d : Discretization R α β} (hview : d.p.view ≠ .full) (backend : Backend R)
    (color : List ℕ → List ℕ → ℕ → ℕ → Asd.Coloring) (P : Coo R) (bc0 : DirichletBC R) (fwd adj : Bool)
    (hasm : (fwd || adj) = true) (guess : Option (List R)) (bc : Option (DirichletBC R)) :
    createReducedA d P bc0 fwd adj = .error .valueError ∧
    reducedSolverA d backend color P bc0 fwd adj guess bc = .error .valueError := by
  have : createReducedA d P bc0 fwd adj = .error .valueError := by
    unfold createReducedA
    split_ifs
    · rfl
    · unfold reducedPattern Asd.connectivityPattern
      simp [hview, bind, Except.bind, Except.map]
  refine ⟨this, ?_⟩
  unfold reducedSolverA reducedOperatorA
  rw [this]
  rfl

/-- The operator of either side: same equations whatever the options. -/
theorem reducedOperatorA_ok {d : Discretization R α β} (h : DiscOK d) (color : List ℕ → List ℕ → ℕ → ℕ → Asd.Coloring)
    (P : Coo R) (hP : InRange P) (hn : P.rows = d.p.n) (bc0 bc : DirichletBC R) (hbc : CanonicalBC d.p.n bc)
    (hval : badBcRows P bc0.rows = []) (fwd adj assembled : Bool) (hle : assembled = true → (fwd || adj) = true)
    (hasm : (fwd || adj) = true → d.p.view = .full ∧ UsedBC d bc ∧ ForwardColors color) (sol : List R) :
    ∃ op, reducedOperatorA d color P bc0 fwd adj assembled bc sol = .ok op ∧
      ∀ b x, Spec.Solves .full P.cols op b x ↔ x.length = P.cols ∧ ∀ i < P.cols,
        ∑ j ∈ Finset.range P.cols, operatorEntry d.p.n P bc.rows (tangentAt d sol) i j * x.getD j 0 = b.getD i 0 := by
  have hfn : ∀ b x, Spec.Solves .full P.cols (.fn fun v => P.rmatvec (d.matfreeAt bc true sol (P.matvec v))) b x ↔
      x.length = P.cols ∧ ∀ i < P.cols,
        ∑ j ∈ Finset.range P.cols, operatorEntry d.p.n P bc.rows (tangentAt d sol) i j * x.getD j 0 = b.getD i 0 := by
    intro b x
    unfold Spec.Solves
    simp only
    constructor
    · rintro ⟨hl, hx⟩
      refine ⟨hl, fun i hi => ?_⟩
      rw [← (reduced_multiplies h hP hn bc hbc sol x hl).2 i hi]
      exact hx i hi
    · rintro ⟨hl, hx⟩
      refine ⟨hl, fun i hi => ?_⟩
      rw [(reduced_multiplies h hP hn bc hbc sol x hl).2 i hi]
      exact hx i hi
  by_cases ha : (fwd || adj) = true
  · obtain ⟨hview, hused, hcol⟩ := hasm ha
    obtain ⟨pat, M, h1, h2, h3⟩ := C127_operator h hview color hcol P hP hn bc0 bc hbc hused hval fwd adj ha sol
    cases assembled with
    | true =>
      refine ⟨.csr M, ?_, ?_⟩
      · unfold reducedOperatorA
        rw [h1]
        exact h2
      · intro b x
        unfold Spec.Solves
        simp only [Spec.completed]
        refine and_congr_right fun hl => forall_congr' fun i => imp_congr_right fun hi => ?_
        rw [Finset.sum_congr rfl fun j hj => by rw [h3.dense i hi j (Finset.mem_range.1 hj)]]
    | false =>
      refine ⟨_, ?_, hfn⟩
      unfold reducedOperatorA
      rw [h1]
      simp only [bind, Except.bind]
      unfold sideOperator
      simp only
  · have hf : assembled = false := by
      cases assembled with
      | true => exact absurd (hle rfl) ha
      | false => rfl
    subst hf
    refine ⟨_, ?_, hfn⟩
    unfold reducedOperatorA createReducedA
    rw [if_neg (not_not.2 hval), if_neg ha]
    simp only [bind, Except.bind]
    unfold sideOperator
    simp only

/-- What the model needs of a reduced solver: the pairing was validated, and when a side is assembled the storage is full,
the constrained DOFs belong to elements and the colouring library keeps its contract. -/
structure ReducedOK (d : Discretization R α β) (color : List ℕ → List ℕ → ℕ → ℕ → Asd.Coloring) (P : Coo R)
    (bc0 bc : DirichletBC R) (fwd adj : Bool) : Prop where
  ok : DiscOK d
  range : InRange P
  rows : P.rows = d.p.n
  canonical : CanonicalBC d.p.n bc
  valid : badBcRows P bc0.rows = []
  asm : (fwd || adj) = true → d.p.view = .full ∧ UsedBC d bc ∧ ForwardColors color

/-- C127: whatever the options (matrix-free or assembled), the result is `guess + P x` with `x` a solution of the reduced
equations `PᵀJP x = -Pᵀ r`, provided the linear solver solves the one system it is given. -/
theorem C127_result {d : Discretization R α β} (color : List ℕ → List ℕ → ℕ → ℕ → Asd.Coloring) (P : Coo R)
    (bc0 : DirichletBC R) (fwd adj : Bool) (bc : DirichletBC R) (ok : ReducedOK d color P bc0 bc fwd adj) (backend : Backend R)
    (guess : List R)
    (hsolve : ∀ op, reducedOperatorA d color P bc0 fwd adj fwd bc guess = .ok op →
      Spec.Solves .full P.cols op (reducedRhs d P bc guess) (backend op (reducedRhs d P bc guess) (List.replicate P.cols 0))) :
    ∃ x : List R, reducedSolverA d backend color P bc0 fwd adj (some guess) (some bc) = .ok (vadd guess (P.matvec x)) ∧
      x.length = P.cols ∧ ∀ i < P.cols,
        ∑ j ∈ Finset.range P.cols, operatorEntry d.p.n P bc.rows (tangentAt d guess) i j * x.getD j 0
          = -∑ a ∈ Finset.range d.p.n, entry P a i * (d.resBc bc guess).getD a 0 := by
  obtain ⟨op, hop, hiff⟩ := reducedOperatorA_ok ok.ok color P ok.range ok.rows bc0 bc ok.canonical ok.valid fwd adj fwd
    (fun hf => by rw [hf]; rfl) ok.asm guess
  obtain ⟨hl, hx⟩ := (hiff _ _).1 (hsolve op hop)
  refine ⟨_, ?_, hl, fun i hi => ?_⟩
  · unfold reducedSolverA
    simp only [Option.getD_some]
    rw [hop]
    rfl
  · rw [hx i hi]
    have hlen : (d.resBc bc guess).length = P.rows := by
      unfold Discretization.resBc
      rw [ok.rows, (C13_boundary_residual d.p.n bc ok.canonical (d.residualAt guess) guess 1 (residualAt_length ok.ok guess)).1]
    unfold reducedRhs
    rw [vneg_getD, (coo_rmultiplies ok.range _ hlen).2 i hi, ok.rows]

/-- C127: with a reduced operator that has trivial kernel, all options give the same answer. -/
theorem C127_options_agree {d : Discretization R α β} (color : List ℕ → List ℕ → ℕ → ℕ → Asd.Coloring) (P : Coo R)
    (bc0 : DirichletBC R) (fwd adj fwd' adj' : Bool) (bc : DirichletBC R) (ok : ReducedOK d color P bc0 bc fwd adj)
    (ok' : ReducedOK d color P bc0 bc fwd' adj') (backend backend' : Backend R) (guess : List R)
    (hsolve : ∀ op, reducedOperatorA d color P bc0 fwd adj fwd bc guess = .ok op →
      Spec.Solves .full P.cols op (reducedRhs d P bc guess) (backend op (reducedRhs d P bc guess) (List.replicate P.cols 0)))
    (hsolve' : ∀ op, reducedOperatorA d color P bc0 fwd' adj' fwd' bc guess = .ok op →
      Spec.Solves .full P.cols op (reducedRhs d P bc guess) (backend' op (reducedRhs d P bc guess) (List.replicate P.cols 0)))
    (hker : ∀ z : ℕ → R, (∀ i < P.cols, ∑ j ∈ Finset.range P.cols,
      operatorEntry d.p.n P bc.rows (tangentAt d guess) i j * z j = 0) → ∀ j < P.cols, z j = 0) :
    reducedSolverA d backend color P bc0 fwd adj (some guess) (some bc)
      = reducedSolverA d backend' color P bc0 fwd' adj' (some guess) (some bc) := by
  obtain ⟨x, h1, h2, h3⟩ := C127_result color P bc0 fwd adj bc ok backend guess hsolve
  obtain ⟨x', h1', h2', h3'⟩ := C127_result color P bc0 fwd' adj' bc ok' backend' guess hsolve'
  have : x = x' := by
    apply List.ext_getElem (by rw [h2, h2'])
    intro k hk hk'
    have := hker (fun j => x.getD j 0 - x'.getD j 0) (fun i hi => by
      have := (h3 i hi).trans (h3' i hi).symm
      simp only [mul_sub, Finset.sum_sub_distrib]
      rw [this, sub_self]) k (by omega)
    rw [List.getD_eq_getElem _ _ hk, List.getD_eq_getElem _ _ hk'] at this
    exact sub_eq_zero.1 this
  rw [h1, h1', this]

variable {Pt : Type*}

theorem copies_inRange {P : Coo R} {N M : ℕ} {col : ℕ → ℕ} (h : Copies P N M col) : InRange P := by
  intro e he
  rw [h.entries] at he
  obtain ⟨i, hi, rfl⟩ := List.mem_map.1 he
  have hi' := List.mem_range.1 hi
  have := h.lt i hi'
  rw [h.rows, h.cols]
  exact ⟨hi', by simp, by simp only; exact_mod_cast this⟩

/-- C127: for a linear problem with periodic pairings (no chains) and a guess that meets the prescribed values, the result
meets them and is in equilibrium against every periodic variation that vanishes where values are prescribed, with assembled
operators as without. -/
theorem C127_equilibrium_partial [DecidableEq R] [IsDomain R] [CharZero R] (near : Pt → Pt → Bool)
    (points : List Pt) (vec : ℕ) (pairings : List (PeriodicPairing Pt)) (P : Coo R)
    (hP : prolongationMatrix near points vec pairings = .ok P)
    (hchain : ∀ i j k, Spec.PairedDofs near points vec pairings i j → ¬ Spec.PairedDofs near points vec pairings k i)
    {d : Discretization R α β} {kv0 : α → Local R} {kf0 : ℕ → β → Local R} (hl : LinearKernels d kv0 kf0)
    (hs0 : Shapes d.p kv0 kf0 d.cellsIn d.facesIn) (color : List ℕ → List ℕ → ℕ → ℕ → Asd.Coloring) (fwd adj : Bool)
    (bc : DirichletBC R) (h : DiscOK d) (hn : points.length * vec = d.p.n) (hbc : CanonicalBC d.p.n bc)
    (hval : badBcRows P bc.rows = [])
    (hasm : (fwd || adj) = true → d.p.view = .full ∧ UsedBC d bc ∧ ForwardColors color) (backend : Backend R)
    (guess : List R) (hg : guess.length = d.p.n) (hmeets : Spec.MeetsBC bc guess)
    (hsolve : ∀ op, reducedOperatorA d color P bc fwd adj fwd bc guess = .ok op →
      Spec.Solves .full P.cols op (reducedRhs d P bc guess) (backend op (reducedRhs d P bc guess) (List.replicate P.cols 0))) :
    ∃ u, reducedSolverA d backend color P bc fwd adj (some guess) none = .ok u ∧ Spec.MeetsBC bc u ∧
      ∀ w : List R, w.length = d.p.n →
        (∀ i j, Spec.PairedDofs near points vec pairings i j → w.getD j 0 = w.getD i 0) → (∀ i ∈ bc.rows, w.getD i 0 = 0) →
        ∑ i ∈ Finset.range d.p.n, w.getD i 0 * (d.residualAt u).getD i 0 = 0 := by
  obtain ⟨B, -, -, -, -, col, hcop, -⟩ := prolongation_copies near points vec pairings P hP hchain
  rw [hn] at hcop
  have hr := copies_inRange hcop
  obtain ⟨op, hop, hiff⟩ := reducedOperatorA_ok h color P hr hcop.rows bc bc hbc hval fwd adj fwd
    (fun hf => by rw [hf]; rfl) hasm guess
  have hx := hsolve op hop
  set x := backend op (reducedRhs d P bc guess) (List.replicate P.cols 0) with hxd
  have hu : reducedSolver d (fun _ _ _ => x) P bc (some guess) none = .ok (vadd guess (P.matvec x)) := by
    unfold reducedSolver
    rw [if_neg (not_not.2 hval)]
    rfl
  have hs : Spec.Solves d.p.view P.cols (.fn (reducedOp d P bc guess)) (reducedRhs d P bc guess) x := by
    obtain ⟨h1, h2⟩ := (hiff _ _).1 hx
    refine ⟨h1, fun i hi => ?_⟩
    unfold reducedOp
    rw [(reduced_multiplies h hr hcop.rows bc hbc guess x h1).2 i hi]
    exact h2 i hi
  have key := fun w hw h1 h2 => C21_constrained_equilibrium_partial near points vec pairings P hP hchain h hl hs0 hn
    (fun _ _ _ => x) bc hbc guess hg hmeets _ hu hs w hw h1 h2
  refine ⟨vadd guess (P.matvec x), ?_, ?_, fun w hw h1 h2 => (key w hw h1 h2).2⟩
  · unfold reducedSolverA
    simp only [Option.getD_some, Option.getD_none]
    rw [hop]
    rfl
  · exact (key (List.replicate d.p.n 0) (by simp) (fun i j _ => by simp [List.getD_replicate]) (fun i _ => by simp)).1

end

/-! ### The gradient -/

section
variable {α β : Type*}

theorem zipWith_dot {n : ℕ} : ∀ {a b : List ℝ}, a.length = n → b.length = n →
    (List.zipWith (· * ·) a b).sum = ∑ i ∈ Finset.range n, a.getD i 0 * b.getD i 0 := by
  induction n with
  | zero =>
    intro a b ha _
    simp [List.length_eq_zero_iff.1 ha]
  | succ n ih =>
    intro a b ha hb
    match a, b, ha, hb with
    | x :: a, y :: b, ha, hb =>
      rw [List.zipWith_cons_cons, List.sum_cons, Finset.sum_range_succ', ih (by simpa using ha) (by simpa using hb)]
      simp [add_comm]

/-- Product of a continuous factor and a differentiable one that vanishes. -/
theorem hasDerivAt_mul_zero {f g : ℝ → ℝ} {g' : ℝ} (hf : ContinuousAt f 0) (hg : HasDerivAt g g' 0) (h0 : g 0 = 0) :
    HasDerivAt (fun t => f t * g t) (f 0 * g') 0 := by
  rw [hasDerivAt_iff_tendsto_slope] at hg ⊢
  have : slope (fun t => f t * g t) 0 = fun t => f t * slope g 0 t := by
    funext t
    simp only [slope_def_field, h0]
    ring
  rw [this]
  exact (hf.tendsto.mono_left nhdsWithin_le_nhds).mul hg

/-- The reduced product, through the full space. -/
theorem operator_apply {d : Discretization ℝ α β} (h : DiscOK d) {P : Coo ℝ} (hP : InRange P) (hn : P.rows = d.p.n)
    (bc : DirichletBC ℝ) (hbc : CanonicalBC d.p.n bc) (sol x : List ℝ) (hx : x.length = P.cols) (c : ℕ) (hc : c < P.cols) :
    ∑ j ∈ Finset.range P.cols, operatorEntry d.p.n P bc.rows (tangentAt d sol) c j * x.getD j 0
      = ∑ a ∈ Finset.range d.p.n, entry P a c *
          ∑ b ∈ Finset.range d.p.n, elimEntry bc.rows true (tangentAt d sol) a b * (P.matvec x).getD b 0 := by
  have hl : (P.matvec x).length = d.p.n := by rw [← hn]; exact (coo_multiplies hP x hx).1
  have hm := matfree_multiplies h bc hbc sol _ hl
  rw [← (reduced_multiplies h hP hn bc hbc sol x hx).2 c hc, (coo_rmultiplies hP _ (by rw [hm.1, hn])).2 c hc, hn]
  exact Finset.sum_congr rfl fun a ha => by rw [hm.2 a (Finset.mem_range.1 ha)]

/-- C127: for a linear problem with symmetric tangent, what `f_bwd` returns for a traced parameter is the derivative of the
objective through the whole reduced solve, for every prolongation and with assembled or matrix-free operators on either
side. -/
theorem C127_gradient_partial (d : ℝ → Discretization ℝ α β) (n : ℕ) (hn : ∀ t, (d t).p.n = n) (kv0 : ℝ → α → Local ℝ)
    (kf0 : ℝ → ℕ → β → Local ℝ) (hlin : ∀ t, LinearKernels (d t) (kv0 t) (kf0 t))
    (hs0 : ∀ t, Shapes (d t).p (kv0 t) (kf0 t) (d t).cellsIn (d t).facesIn)
    (color : List ℕ → List ℕ → ℕ → ℕ → Asd.Coloring) (P : Coo ℝ) (bc0 bc : DirichletBC ℝ) (fwd adj : Bool)
    (ok : ∀ t, ReducedOK (d t) color P bc0 bc fwd adj) (backend backendAdj : Backend ℝ) (guess : List ℝ)
    (hg : guess.length = n) (hmeets : Spec.MeetsBC bc guess)
    (hsolve : ∀ t op, reducedOperatorA (d t) color P bc0 fwd adj fwd bc guess = .ok op →
      Spec.Solves .full P.cols op (reducedRhs (d t) P bc guess)
        (backend op (reducedRhs (d t) P bc guess) (List.replicate P.cols 0)))
    (u : ℝ → List ℝ) (hu : ∀ t, reducedSolverA (d t) backend color P bc0 fwd adj (some guess) (some bc) = .ok (u t))
    (hu0 : Spec.MeetsBC bc (u 0))
    (hsym : ∀ i < n, ∀ j < n, tangentAt (d 0) (u 0) i j = tangentAt (d 0) (u 0) j i)
    (v : List ℝ) (hv : v.length = n) (lam : List ℝ)
    (hlam : reducedAdjointA (d 0) backendAdj color P bc0 fwd adj (some bc) (u 0) v = .ok lam)
    (hsolveAdj : ∀ op, reducedOperatorA (d 0) color P bc0 fwd adj adj bc (u 0) = .ok op →
      Spec.Solves .full P.cols op (P.rmatvec v) (backendAdj op (P.rmatvec v) (List.replicate P.cols 0)))
    (du : ℕ → ℝ) (hdu : ∀ i < n, HasDerivAt (fun t => (u t).getD i 0) (du i) 0)
    (hcont : ∀ i < n, ∀ j < n, ContinuousAt (fun t => tangentAt (d t) (u 0) i j) 0)
    (dres : List ℝ) (hdl : dres.length = n)
    (hdres : ∀ i < n, HasDerivAt (fun t => ((d t).resBc bc (u 0)).getD i 0) (dres.getD i 0) 0) :
    HasDerivAt (fun t => ∑ i ∈ Finset.range n, v.getD i 0 * (u t).getD i 0) (reducedCotangent lam dres) 0 := by
  have hP := (ok 0).range
  have hrows : P.rows = n := by rw [(ok 0).rows, hn]
  have hm := coo_multiplies hP
  have hmr := coo_rmultiplies hP
  rw [hrows] at hm hmr
  have hbc : CanonicalBC n bc := by have := (ok 0).canonical; rwa [hn] at this
  -- the tangent does not depend on the state
  have hK : ∀ t s s' i j, tangentAt (d t) s i j = tangentAt (d t) s' i j := by
    intro t s s' i j
    rw [(residual_affine (ok t).ok (hlin t) (hs0 t) s).1, (residual_affine (ok t).ok (hlin t) (hs0 t) s').1]
  have hKf : ∀ t s s', tangentAt (d t) s = tangentAt (d t) s' := fun t s s' => by funext i j; exact hK t s s' i j
  have haff : ∀ t s i, i < n → ((d t).residualAt s).getD i 0 = ((d t).residualAt guess).getD i 0
      + ∑ j ∈ Finset.range n, tangentAt (d t) (u 0) i j * (s.getD j 0 - guess.getD j 0) := by
    intro t s i hi
    have h1 := (residual_affine (ok t).ok (hlin t) (hs0 t) s).2 i (by rw [hn]; exact hi)
    have h2 := (residual_affine (ok t).ok (hlin t) (hs0 t) guess).2 i (by rw [hn]; exact hi)
    rw [h1, h2, hn]
    simp only [(residual_affine (ok t).ok (hlin t) (hs0 t) (u 0)).1 i, mul_sub, Finset.sum_sub_distrib]
    ring
  -- the reduced solutions
  have hex : ∀ t, ∃ x : List ℝ, u t = vadd guess (P.matvec x) ∧ x.length = P.cols ∧ ∀ c < P.cols,
      ∑ a ∈ Finset.range n, entry P a c * (∑ b ∈ Finset.range n,
        elimEntry bc.rows true (tangentAt (d t) (u 0)) a b * (P.matvec x).getD b 0 + ((d t).resBc bc guess).getD a 0) = 0 := by
    intro t
    obtain ⟨x, h1, h2, h3⟩ := C127_result color P bc0 fwd adj bc (ok t) backend guess (hsolve t)
    refine ⟨x, ?_, h2, fun c hc => ?_⟩
    · rw [hu t] at h1
      exact Except.ok.inj h1
    · have := h3 c hc
      rw [operator_apply (ok t).ok hP (ok t).rows bc (ok t).canonical guess x h2 c hc, hn, hKf t guess (u 0)] at this
      simp only [mul_add, Finset.sum_add_distrib]
      rw [this]
      ring
  choose x hxu hxl hxe using hex
  have hPx : ∀ t, (P.matvec (x t)).length = n := fun t => (hm (x t) (hxl t)).1
  have hug : ∀ t i, (u t).getD i 0 = guess.getD i 0 + (P.matvec (x t)).getD i 0 := by
    intro t i
    rw [hxu t, vadd_getD _ _ (by rw [hg, hPx])]
  -- residual at the fixed state
  have hB : ∀ t, ∀ i < n, ∑ j ∈ Finset.range n, elimEntry bc.rows true (tangentAt (d t) (u 0)) i j * (P.matvec (x 0)).getD j 0
      + ((d t).resBc bc guess).getD i 0 = ((d t).resBc bc (u 0)).getD i 0 := by
    intro t i hi
    have hr0 := C13_boundary_residual n bc hbc ((d t).residualAt guess) guess 1
      (by rw [residualAt_length (ok t).ok, hn])
    have hr1 := C13_boundary_residual n bc hbc ((d t).residualAt (u 0)) (u 0) 1
      (by rw [residualAt_length (ok t).ok, hn])
    unfold Discretization.resBc
    have hz : ∀ j ∈ bc.rows, (P.matvec (x 0)).getD j 0 = 0 := by
      intro j hj
      obtain ⟨k, hk, rfl⟩ := mem_rows_getD hbc hj
      have e1 := hu0 k hk
      have e2 := hmeets k hk
      have e3 := hug 0 (bc.rows.getD k 0)
      linarith
    by_cases hir : i ∈ bc.rows
    · have hsum : ∑ j ∈ Finset.range n, elimEntry bc.rows true (tangentAt (d t) (u 0)) i j * (P.matvec (x 0)).getD j 0
          = (P.matvec (x 0)).getD i 0 := by
        unfold elimEntry
        simp [hir, hi]
      rw [hsum]
      obtain ⟨k, hk, rfl⟩ := mem_rows_getD hbc hir
      rw [hr0.2.1 k hk, hr1.2.1 k hk, hug]
      ring
    · rw [hr0.2.2 i hir, hr1.2.2 i hir, haff t (u 0) i hi, add_comm]
      congr 1
      refine Finset.sum_congr rfl fun j _ => ?_
      unfold elimEntry
      rw [if_neg hir]
      have : (u 0).getD j 0 - guess.getD j 0 = (P.matvec (x 0)).getD j 0 := by rw [hug]; ring
      rw [this]
      by_cases hjr : j ∈ bc.rows
      · rw [hz j hjr]; ring
      · simp [hjr]
  -- the adjoint vector
  obtain ⟨op, hop, hiff⟩ := reducedOperatorA_ok (ok 0).ok color P hP (ok 0).rows bc0 bc (ok 0).canonical (ok 0).valid fwd adj adj
    (fun hf => by rw [hf]; simp) (ok 0).asm (u 0)
  obtain ⟨hyl, hy⟩ := (hiff _ _).1 (hsolveAdj op hop)
  set y := backendAdj op (P.rmatvec v) (List.replicate P.cols 0) with hyd
  have hlamy : lam = P.matvec y := by
    unfold reducedAdjointA at hlam
    simp only [Option.getD_some] at hlam
    rw [hop] at hlam
    exact (Except.ok.inj hlam).symm
  have hlaml : lam.length = n := by rw [hlamy]; exact (hm y hyl).1
  have hlamg : ∀ i < n, lam.getD i 0 = ∑ c ∈ Finset.range P.cols, entry P i c * y.getD c 0 := by
    intro i hi
    rw [hlamy]
    exact (hm y hyl).2 i hi
  set J : ℝ → ℕ → ℕ → ℝ := fun t => elimEntry bc.rows true (tangentAt (d t) (u 0)) with hJ
  -- the equations tested with the adjoint vector
  have hD : ∀ t, ∑ i ∈ Finset.range n, lam.getD i 0 * (∑ j ∈ Finset.range n, J t i j * ((u t).getD j 0 - (u 0).getD j 0)
      + ((d t).resBc bc (u 0)).getD i 0) = 0 := by
    intro t
    have e : ∀ i ∈ Finset.range n, lam.getD i 0 * (∑ j ∈ Finset.range n, J t i j * ((u t).getD j 0 - (u 0).getD j 0)
        + ((d t).resBc bc (u 0)).getD i 0)
        = ∑ c ∈ Finset.range P.cols, y.getD c 0 * (entry P i c * (∑ b ∈ Finset.range n,
          J t i b * (P.matvec (x t)).getD b 0 + ((d t).resBc bc guess).getD i 0)) := by
      intro i hi
      rw [hlamg i (Finset.mem_range.1 hi), ← hB t i (Finset.mem_range.1 hi), Finset.sum_mul]
      refine Finset.sum_congr rfl fun c _ => ?_
      have : ∑ j ∈ Finset.range n, J t i j * ((u t).getD j 0 - (u 0).getD j 0)
          = ∑ b ∈ Finset.range n, J t i b * (P.matvec (x t)).getD b 0 - ∑ b ∈ Finset.range n, J t i b * (P.matvec (x 0)).getD b 0 := by
        rw [← Finset.sum_sub_distrib]
        refine Finset.sum_congr rfl fun j _ => ?_
        rw [hug t, hug 0]
        ring
      rw [this]
      ring
    rw [Finset.sum_congr rfl e, Finset.sum_comm]
    refine Finset.sum_eq_zero fun c hc => ?_
    rw [← Finset.mul_sum, hxe t c (Finset.mem_range.1 hc), mul_zero]
  have hJs : ∀ i < n, ∀ j < n, J 0 i j = J 0 j i := by
    intro i hi j hj
    simp only [hJ]
    unfold elimEntry
    by_cases hir : i ∈ bc.rows <;> by_cases hjr : j ∈ bc.rows
    · simp [hir, hjr, eq_comm]
    · have : i ≠ j := fun h => hjr (h ▸ hir)
      simp [hir, hjr, this]
    · have : j ≠ i := fun h => hir (h ▸ hjr)
      simp [hir, hjr, this]
    · simp [hir, hjr, hsym i hi j hj]
  have hE : ∀ t, ∑ i ∈ Finset.range n, v.getD i 0 * ((u t).getD i 0 - (u 0).getD i 0)
      = ∑ i ∈ Finset.range n, lam.getD i 0 * ∑ j ∈ Finset.range n, J 0 i j * ((u t).getD j 0 - (u 0).getD j 0) := by
    intro t
    have hz : ∀ i < n, (u t).getD i 0 - (u 0).getD i 0
        = ∑ c ∈ Finset.range P.cols, entry P i c * ((x t).getD c 0 - (x 0).getD c 0) := by
      intro i hi
      rw [hug t, hug 0, (hm _ (hxl t)).2 i hi, (hm _ (hxl 0)).2 i hi]
      simp only [mul_sub, Finset.sum_sub_distrib]
      ring
    have hadj : ∀ c < P.cols, ∑ a ∈ Finset.range n, entry P a c * v.getD a 0
        = ∑ a ∈ Finset.range n, entry P a c * ∑ b ∈ Finset.range n, J 0 a b * lam.getD b 0 := by
      intro c hc
      have h1 := hy c hc
      rw [operator_apply (ok 0).ok hP (ok 0).rows bc (ok 0).canonical (u 0) y hyl c hc, hn, ← hlamy, (hmr v hv).2 c hc] at h1
      exact h1.symm
    have l : ∑ i ∈ Finset.range n, v.getD i 0 * ((u t).getD i 0 - (u 0).getD i 0)
        = ∑ c ∈ Finset.range P.cols, ((x t).getD c 0 - (x 0).getD c 0) * ∑ a ∈ Finset.range n, entry P a c * v.getD a 0 := by
      simp only [Finset.mul_sum]
      rw [Finset.sum_comm]
      refine Finset.sum_congr rfl fun i hi => ?_
      rw [hz i (Finset.mem_range.1 hi), Finset.mul_sum]
      exact Finset.sum_congr rfl fun c _ => by ring
    rw [l, Finset.sum_congr rfl fun c hc => by rw [hadj c (Finset.mem_range.1 hc)]]
    have r : ∑ c ∈ Finset.range P.cols, ((x t).getD c 0 - (x 0).getD c 0) *
          ∑ a ∈ Finset.range n, entry P a c * ∑ b ∈ Finset.range n, J 0 a b * lam.getD b 0
        = ∑ a ∈ Finset.range n, ((u t).getD a 0 - (u 0).getD a 0) * ∑ b ∈ Finset.range n, J 0 a b * lam.getD b 0 := by
      simp only [Finset.mul_sum]
      rw [Finset.sum_comm]
      refine Finset.sum_congr rfl fun a ha => ?_
      rw [hz a (Finset.mem_range.1 ha), Finset.sum_comm]
      refine Finset.sum_congr rfl fun b _ => ?_
      rw [Finset.sum_mul]
      exact Finset.sum_congr rfl fun c _ => by ring
    rw [r]
    simp only [Finset.mul_sum]
    rw [Finset.sum_comm]
    refine Finset.sum_congr rfl fun b hb => Finset.sum_congr rfl fun a ha => ?_
    rw [hJs a (Finset.mem_range.1 ha) b (Finset.mem_range.1 hb)]
    ring
  -- differentiate both
  have hdz : ∀ j < n, HasDerivAt (fun t => (u t).getD j 0 - (u 0).getD j 0) (du j) 0 := fun j hj => (hdu j hj).sub_const _
  have hJc : ∀ i < n, ∀ j < n, ContinuousAt (fun t => J t i j) 0 := by
    intro i hi j hj
    simp only [hJ]
    unfold elimEntry
    by_cases hir : i ∈ bc.rows
    · simp only [hir, if_true]
      exact continuousAt_const
    · by_cases hjr : j ∈ bc.rows
      · simp only [hir, hjr, if_false, and_self, if_true]
        exact continuousAt_const
      · simp only [hir, hjr, if_false, and_false]
        exact hcont i hi j hj
  have h1 : HasDerivAt (fun t => ∑ i ∈ Finset.range n, lam.getD i 0 * (∑ j ∈ Finset.range n, J t i j *
      ((u t).getD j 0 - (u 0).getD j 0) + ((d t).resBc bc (u 0)).getD i 0))
      (∑ i ∈ Finset.range n, lam.getD i 0 * (∑ j ∈ Finset.range n, J 0 i j * du j + dres.getD i 0)) 0 := by
    refine HasDerivAt.fun_sum fun i hi => HasDerivAt.const_mul _ (HasDerivAt.add (HasDerivAt.fun_sum fun j hj => ?_)
      (hdres i (Finset.mem_range.1 hi)))
    exact hasDerivAt_mul_zero (hJc i (Finset.mem_range.1 hi) j (Finset.mem_range.1 hj)) (hdz j (Finset.mem_range.1 hj)) (by ring)
  have h2 : HasDerivAt (fun t => ∑ i ∈ Finset.range n, lam.getD i 0 * ∑ j ∈ Finset.range n, J 0 i j *
      ((u t).getD j 0 - (u 0).getD j 0)) (∑ i ∈ Finset.range n, lam.getD i 0 * ∑ j ∈ Finset.range n, J 0 i j * du j) 0 := by
    refine HasDerivAt.fun_sum fun i _ => HasDerivAt.const_mul _ (HasDerivAt.fun_sum fun j hj => ?_)
    exact HasDerivAt.const_mul _ (hdz j (Finset.mem_range.1 hj))
  have h3 : ∑ i ∈ Finset.range n, lam.getD i 0 * (∑ j ∈ Finset.range n, J 0 i j * du j + dres.getD i 0) = 0 := by
    have e : (fun t => ∑ i ∈ Finset.range n, lam.getD i 0 * (∑ j ∈ Finset.range n, J t i j *
      ((u t).getD j 0 - (u 0).getD j 0) + ((d t).resBc bc (u 0)).getD i 0)) = fun _ => (0 : ℝ) := funext hD
    rw [e] at h1
    exact h1.unique (hasDerivAt_const _ _)
  have h4 : reducedCotangent lam dres = ∑ i ∈ Finset.range n, lam.getD i 0 * ∑ j ∈ Finset.range n, J 0 i j * du j := by
    unfold reducedCotangent
    rw [zipWith_dot hlaml hdl]
    simp only [mul_add, Finset.sum_add_distrib] at h3
    linarith
  rw [h4]
  have e : (fun t => ∑ i ∈ Finset.range n, v.getD i 0 * (u t).getD i 0)
      = fun t => (∑ i ∈ Finset.range n, lam.getD i 0 * ∑ j ∈ Finset.range n, J 0 i j * ((u t).getD j 0 - (u 0).getD j 0))
        + ∑ i ∈ Finset.range n, v.getD i 0 * (u 0).getD i 0 := by
    funext t
    rw [← hE t, ← Finset.sum_add_distrib]
    exact Finset.sum_congr rfl fun i _ => by ring
  rw [e]
  exact h2.add_const _

end

/-! ### Concrete cases -/

theorem eachAlone_forward : ForwardColors eachAlone := ⟨eachAlone_colors, fun _ _ _ _ => rfl⟩

theorem exReducedOK (fwd adj : Bool) : ReducedOK (exD .full) eachAlone exProl exHold exHold fwd adj where
  ok := exD_ok .full
  range := by unfold InRange; decide
  rows := rfl
  canonical := exHold_canonical .full
  valid := by decide
  asm := fun _ => ⟨rfl, exHold_used .full, eachAlone_forward⟩

/-- The reduced operator of the tied bar is the identity. -/
theorem exReduced_entries (sol : List ℤ) : ∀ i < 2, ∀ j < 2,
    operatorEntry 3 exProl exHold.rows (tangentAt (exD .full) sol) i j = if i = j then 1 else 0 := by
  have e := exD_entries .full sol
  have hr : exHold.rows = [0] := rfl
  intro i hi j hj
  unfold operatorEntry
  rw [hr]
  simp only [Finset.sum_range_succ, Finset.sum_range_zero]
  rw [e 0 (by omega) 0 (by omega), e 0 (by omega) 1 (by omega), e 0 (by omega) 2 (by omega),
    e 1 (by omega) 0 (by omega), e 1 (by omega) 1 (by omega), e 1 (by omega) 2 (by omega),
    e 2 (by omega) 0 (by omega), e 2 (by omega) 1 (by omega), e 2 (by omega) 2 (by omega)]
  revert i j
  decide

theorem exReduced_solves (fwd adj assembled : Bool) (hle : assembled = true → (fwd || adj) = true) (sol b x0 : List ℤ)
    (op : Operator ℤ) (hop : reducedOperatorA (exD .full) eachAlone exProl exHold fwd adj assembled exHold sol = .ok op) :
    Spec.Solves .full exProl.cols op b (exRedBackend op b x0) := by
  have ok := exReducedOK fwd adj
  obtain ⟨op', hop', hiff⟩ := reducedOperatorA_ok ok.ok eachAlone exProl ok.range ok.rows exHold exHold ok.canonical ok.valid
    fwd adj assembled hle ok.asm sol
  rw [hop] at hop'
  obtain rfl := Except.ok.inj hop'
  rw [hiff]
  refine ⟨rfl, fun i hi => ?_⟩
  have hc : exProl.cols = 2 := rfl
  have hn : (exD .full).p.n = 3 := rfl
  rw [hc] at hi
  rw [hc, hn, Finset.sum_congr rfl fun j hj => by rw [exReduced_entries sol i hi j (Finset.mem_range.1 hj)]]
  unfold exRedBackend
  interval_cases i <;> simp [Finset.sum_range_succ]

/-- The assembled operator of the tied bar exists and is the identity. -/
example (sol : List ℤ) := C127_operator (exD_ok .full) rfl eachAlone eachAlone_forward exProl (exReducedOK true true).range rfl
  exHold exHold (exHold_canonical .full) (exHold_used .full) (by decide) true true rfl sol

/-- Lower storage is refused. -/
example := C127_triangular_refused (d := exD .lower) (by decide) exRedBackend eachAlone exProl exHold true false rfl none none

/-- Direct forward solve, matrix-free adjoint. -/
example := C127_result eachAlone exProl exHold true false exHold (exReducedOK true false) exRedBackend [0, 7, 9]
  (fun op hop => exReduced_solves true false true (fun _ => rfl) _ _ _ op hop)

/-- Direct and matrix-free solves agree on the tied bar. -/
example : reducedSolverA (exD .full) exRedBackend eachAlone exProl exHold true true (some [0, 7, 9]) (some exHold)
    = reducedSolverA (exD .full) exRedBackend eachAlone exProl exHold false false (some [0, 7, 9]) (some exHold) := by
  refine C127_options_agree eachAlone exProl exHold true true false false exHold (exReducedOK _ _) (exReducedOK _ _)
    exRedBackend exRedBackend [0, 7, 9] (fun op hop => exReduced_solves true true true (fun _ => rfl) _ _ _ op hop)
    (fun op hop => exReduced_solves false false false (fun h => by cases h) _ _ _ op hop) ?_
  intro z hz j hj
  have hc : exProl.cols = 2 := rfl
  have hn : (exD .full).p.n = 3 := rfl
  rw [hc] at hz hj
  have := hz j hj
  rw [hn, Finset.sum_congr rfl fun k hk => by rw [exReduced_entries _ j hj k (Finset.mem_range.1 hk)]] at this
  interval_cases j <;> simpa [Finset.sum_range_succ] using this

example := C127_equilibrium_partial exNear [0, 1, 2] 1 [exTie] exProl exTie_ok exTie_chain (exD_lin .full) (exD_shapes0 .full)
  eachAlone true true exHold (exD_ok .full) rfl (exHold_canonical .full) (by decide) (exReducedOK true true).asm exRedBackend
  [0, 7, 9] rfl (by unfold Spec.MeetsBC; decide)
  (fun op hop => exReduced_solves true true true (fun _ => rfl) _ _ _ op hop)

/-- One element on two nodes, stiffness `[[2, 1], [1, 2]]`, load `(t, 0)`. -/
noncomputable def exLoadKv (t : ℝ) (_ : Unit) : Local ℝ := ⟨[-t, 0], [2, 1, 1, 2]⟩

noncomputable def exLoadKf (_ : ℕ) (_ : Unit) : Local ℝ := ⟨[0, 0], [0, 0, 0, 0]⟩

noncomputable def exLoad (t : ℝ) : Discretization ℝ Unit Unit where
  p := ⟨[⟨1, 2, 2, [[0, 1]]⟩], 1, [], .full⟩
  kv := fun q => ⟨vadd (localMul 2 (exLoadKv t q.1).jac q.2) (exLoadKv t q.1).res, (exLoadKv t q.1).jac⟩
  kf := fun k q => ⟨vadd (localMul 2 (exLoadKf k q.1).jac q.2) (exLoadKf k q.1).res, (exLoadKf k q.1).jac⟩
  zv := ()
  zf := ()
  cellsIn := [()]
  facesIn := []
  batch := 1

theorem exLoad_ok (t : ℝ) : DiscOK (exLoad t) where
  wf := by
    refine ⟨?_, by intro fc hfc; simp [exLoad] at hfc⟩
    intro v hv
    simp only [exLoad, List.mem_singleton] at hv
    subst hv
    exact ⟨rfl, by decide, by decide⟩
  batch := Nat.one_pos
  cells := rfl
  faces := .nil
  volJac := fun _ => rfl
  volRes := fun _ => rfl
  faceJac := fun _ _ => rfl
  faceRes := fun _ _ => rfl

theorem exLoad_lin (t : ℝ) : LinearKernels (exLoad t) (exLoadKv t) exLoadKf := ⟨fun _ _ => rfl, fun _ _ _ => rfl⟩

theorem exLoad_shapes (t : ℝ) : Shapes (exLoad t).p (exLoadKv t) exLoadKf (exLoad t).cellsIn (exLoad t).facesIn :=
  ⟨rfl, .nil, fun _ => rfl, fun _ => rfl, fun _ _ => rfl, fun _ _ => rfl⟩

theorem exLoad_elements (t : ℝ) : elements (exLoad t).p (exLoadKv t) exLoadKf (exLoad t).cellsIn (exLoad t).facesIn
    = [⟨[0, 1], [-t, 0], [2, 1, 1, 2]⟩] := rfl

theorem exLoad_tangent (t : ℝ) (sol : List ℝ) : ∀ i < 2, ∀ j < 2,
    tangentAt (exLoad t) sol i j = if i = j then 2 else 1 := by
  intro i hi j hj
  rw [(residual_affine (exLoad_ok t) (exLoad_lin t) (exLoad_shapes t) sol).1 i j, exLoad_elements]
  unfold Spec.assembledMat
  interval_cases i <;> interval_cases j <;> simp [Finset.sum_range_succ]

/-- Both nodes tied, nothing prescribed. -/
def exTwo : Coo ℝ := ⟨2, 1, [(0, 0, 1), (1, 0, 1)]⟩

def exFree : DirichletBC ℝ := ⟨[], [false, false], [], 2⟩

theorem exLoadOK (t : ℝ) : ReducedOK (exLoad t) eachAlone exTwo exFree exFree true false where
  ok := exLoad_ok t
  range := by simp [InRange, exTwo]
  rows := rfl
  canonical := ⟨by simp [exFree], by simp [exFree], rfl, by
    intro d hd
    have : d < 2 := hd
    interval_cases d <;> simp [exFree], rfl, rfl⟩
  valid := by simp [badBcRows, exFree]
  asm := fun _ => ⟨rfl, fun _ r hr => by simp [exFree] at hr, eachAlone_forward⟩

theorem exTwo_entry (a : ℕ) (ha : a < 2) : entry exTwo a 0 = 1 := by
  unfold entry exTwo
  interval_cases a <;> simp

noncomputable def exSixth : Backend ℝ := fun _ b _ => [b.getD 0 0 / 6]

theorem exSixth_solves (t : ℝ) (assembled : Bool) (sol b x0 : List ℝ) (op : Operator ℝ)
    (hop : reducedOperatorA (exLoad t) eachAlone exTwo exFree true false assembled exFree sol = .ok op) :
    Spec.Solves .full exTwo.cols op b (exSixth op b x0) := by
  have ok := exLoadOK t
  obtain ⟨op', hop', hiff⟩ := reducedOperatorA_ok ok.ok eachAlone exTwo ok.range ok.rows exFree exFree ok.canonical ok.valid
    true false assembled (fun _ => rfl) ok.asm sol
  rw [hop] at hop'
  obtain rfl := Except.ok.inj hop'
  rw [hiff]
  refine ⟨rfl, fun i hi => ?_⟩
  have hc : exTwo.cols = 1 := rfl
  have hn : (exLoad t).p.n = 2 := rfl
  have hr : exFree.rows = [] := rfl
  rw [hc] at hi
  obtain rfl : i = 0 := by omega
  have e := exLoad_tangent t sol
  have e6 : operatorEntry 2 exTwo [] (tangentAt (exLoad t) sol) 0 0 = 6 := by
    unfold operatorEntry
    simp only [Finset.sum_range_succ, Finset.sum_range_zero, List.not_mem_nil, if_false]
    rw [e 0 (by omega) 0 (by omega), e 0 (by omega) 1 (by omega), e 1 (by omega) 0 (by omega), e 1 (by omega) 1 (by omega),
      exTwo_entry 0 (by omega), exTwo_entry 1 (by omega)]
    norm_num
  rw [hc, hn, hr, Finset.sum_range_one, e6]
  unfold exSixth
  simp only [List.getD_cons_zero]
  ring

theorem exLoad_res (t : ℝ) (sol : List ℝ) : ∀ i < 2, ((exLoad t).resBc exFree sol).getD i 0
    = ∑ j ∈ Finset.range 2, (if i = j then 2 else 1) * sol.getD j 0 + if i = 0 then -t else 0 := by
  intro i hi
  have hb := C13_boundary_residual 2 exFree (exLoadOK t).canonical ((exLoad t).residualAt sol) sol 1
    (residualAt_length (exLoad_ok t) sol)
  unfold Discretization.resBc
  rw [hb.2.2 i (by simp [exFree])]
  obtain ⟨h1, h2⟩ := residual_affine (exLoad_ok t) (exLoad_lin t) (exLoad_shapes t) sol
  have hn : (exLoad t).p.n = 2 := rfl
  rw [h2 i hi, hn]
  congr 1
  · refine Finset.sum_congr rfl fun j hj => ?_
    rw [← h1, exLoad_tangent t sol i hi j (Finset.mem_range.1 hj)]
  · rw [exLoad_elements]
    unfold Spec.assembledVec
    interval_cases i <;> simp [Finset.sum_range_succ]

theorem exLoad_solution (t : ℝ) : reducedSolverA (exLoad t) exSixth eachAlone exTwo exFree true false (some [0, 0]) (some exFree)
    = .ok [t / 6, t / 6] := by
  have ok := exLoadOK t
  obtain ⟨op, hop, -⟩ := reducedOperatorA_ok ok.ok eachAlone exTwo ok.range ok.rows exFree exFree ok.canonical ok.valid
    true false true (fun _ => rfl) ok.asm [0, 0]
  unfold reducedSolverA
  simp only [Option.getD_some]
  rw [hop]
  have r0 := exLoad_res t [0, 0] 0 (by omega)
  have r1 := exLoad_res t [0, 0] 1 (by omega)
  simp [Finset.sum_range_succ] at r0 r1
  simp [bind, Except.bind, exSixth, exTwo, Coo.rmatvec, Coo.matvec, vneg, vadd, r0, r1, List.range_succ]

/-- The derivative of the first displacement with respect to the load is `1 / 6`, as the adjoint says. -/
example : HasDerivAt (fun t : ℝ => ∑ i ∈ Finset.range 2, [1, 0].getD i 0 * [t / 6, t / 6].getD i 0)
    (reducedCotangent [1 / 6, 1 / 6] [-1, 0]) 0 := by
  have ok := exLoadOK 0
  refine C127_gradient_partial exLoad 2 (fun _ => rfl) exLoadKv (fun _ => exLoadKf) exLoad_lin exLoad_shapes eachAlone exTwo
    exFree exFree true false exLoadOK exSixth exSixth [0, 0] rfl (fun k hk => by simp [exFree] at hk)
    (fun t op hop => exSixth_solves t true _ _ _ op hop) (fun t => [t / 6, t / 6]) exLoad_solution
    (fun k hk => by simp [exFree] at hk) ?_ [1, 0] rfl [1 / 6, 1 / 6] ?_ (fun op hop => exSixth_solves 0 false _ _ _ op hop)
    (fun _ => 1 / 6) ?_ ?_ [-1, 0] rfl ?_
  · intro i hi j hj
    rw [exLoad_tangent 0 _ i hi j hj, exLoad_tangent 0 _ j hj i hi]
    simp only [eq_comm]
  · obtain ⟨op, hop, -⟩ := reducedOperatorA_ok ok.ok eachAlone exTwo ok.range ok.rows exFree exFree ok.canonical ok.valid
      true false false (fun _ => rfl) ok.asm [0 / 6, 0 / 6]
    unfold reducedAdjointA
    simp only [Option.getD_some]
    rw [hop]
    simp [bind, Except.bind, exSixth, exTwo, Coo.rmatvec, Coo.matvec, List.range_succ]
  · intro i hi
    have : HasDerivAt (fun t : ℝ => t / 6) (1 / 6) 0 := (hasDerivAt_id 0).div_const 6
    interval_cases i <;> simpa using this
  · intro i hi j hj
    simp only [exLoad_tangent _ _ i hi j hj]
    exact continuousAt_const
  · intro i hi
    simp only [exLoad_res _ _ i hi]
    interval_cases i
    · simpa using hasDerivAt_neg (0 : ℝ)
    · simpa [Finset.sum_range_succ] using hasDerivAt_const (0 : ℝ) (0 : ℝ)

/-- A bar on nodes `0`, `1`; node `2` belongs to no element. -/
def exSpare : Discretization ℤ ℤ ℤ where
  p := ⟨[⟨1, 3, 2, [[0, 1]]⟩], 1, [], .full⟩
  kv := fun q => ⟨vadd (localMul 2 (exLinKv q.1).jac q.2) (exLinKv q.1).res, (exLinKv q.1).jac⟩
  kf := fun k q => ⟨vadd (localMul 2 (exLinKf k q.1).jac q.2) (exLinKf k q.1).res, (exLinKf k q.1).jac⟩
  zv := 0
  zf := 0
  cellsIn := [1]
  facesIn := []
  batch := 1

/-- C127 (violation): a prescribed DOF outside every element has an identity row in the matrix-free reduced operator and a
zero row in the assembled one, so a direct solve gets a singular matrix where the matrix-free solve does not. -/
theorem C127_unused_prescribed_dropped :
    let P : Coo ℤ := ⟨3, 3, [(0, 0, 1), (1, 1, 1), (2, 2, 1)]⟩
    let bc : DirichletBC ℤ := ⟨[0, 2], [true, false, true], [0, 5], 3⟩
    ∃ M, reducedOperatorA exSpare eachAlone P bc true true true bc [0, 0, 0] = .ok (.csr M) ∧
      (∀ j < 3, M.todense 2 j = 0) ∧
      ∀ v ∈ [[1, 0, 0], [0, 1, 0], [0, 0, 1]], (reducedOp exSpare P bc [0, 0, 0] v).getD 2 0 = v.getD 2 0 := by
  intro P bc
  have key : (createReducedA exSpare P bc true true).bind (fun pat =>
      match pat with
      | some q => Asd.operatorAssembler eachAlone (Asd.storedOf q)
          (fun v => P.rmatvec (exSpare.matfreeAt bc true [0, 0, 0] (P.matvec v))) fun _ => []
      | none => .error .valueError) = .ok ⟨[1, 0, 0, 1], [0, 2, 4, 4], [0, 1, 0, 1], 3, 3⟩ := by decide +kernel
  refine ⟨⟨[1, 0, 0, 1], [0, 2, 4, 4], [0, 1, 0, 1], 3, 3⟩, ?_, ?_, ?_⟩
  · unfold reducedOperatorA
    revert key
    cases createReducedA exSpare P bc true true with
    | error e => intro h; cases h
    | ok pat =>
      cases pat with
      | none => intro h; cases h
      | some q =>
        intro h
        simp only [bind, Except.bind] at h ⊢
        unfold sideOperator
        simp only
        rw [h]
        rfl
  · decide +kernel
  · decide +kernel

end Verif.Props
