import Verif.Props.Sdf
import Mathlib.Algebra.BigOperators.Fin
import Mathlib.Algebra.BigOperators.Field
import Mathlib.Algebra.Order.BigOperators.Group.Finset
import Mathlib.Tactic.Positivity
import Mathlib.Data.Rat.Cast.Order

/-!
# C99: density fields on linear triangles and tetrahedra
-/

namespace Verif.Props

open Verif.Model Verif.Spec

section Batch
variable {P X K : Type} [Field K] [LinearOrder K]

/-- One candidate for one point that may already have a density. -/
def step1 (L : Locator P X K) (g : P → ℕ → X) (p : P) (s : Option K × NearMiss X K) (e : ℕ) : Option K × NearMiss X K :=
  if s.1.isSome then s else pointUpdate L e (g p e) s

theorem step1_done (L : Locator P X K) (g : P → ℕ → X) (p : P) (es : List ℕ) (v : K) (b : NearMiss X K) :
    es.foldl (step1 L g p) (some v, b) = (some v, b) := by
  induction es with
  | nil => rfl
  | cons e es ih => simpa [step1] using ih

theorem locate_fold (L : Locator P X K) (g : P → ℕ → X) (hg : ∀ p e, L.inverse p e = some (g p e)) (p : P) (es : List ℕ)
    (best : NearMiss X K) :
    (match locate L p es best with
      | .inl v => some v
      | .inr _ => none) = (es.foldl (step1 L g p) (none, best)).1 ∧
    ∀ b, locate L p es best = .inr b → (es.foldl (step1 L g p) (none, best)).2 = b := by
  induction es generalizing best with
  | nil => exact ⟨rfl, fun b h => Sum.inr.inj h⟩
  | cons e es ih =>
    rw [List.foldl_cons]
    by_cases h1 : L.inside (g p e) = true
    · have hs : step1 L g p (none, best) e = (some (L.value e (g p e)), best) := by simp [step1, pointUpdate, h1]
      rw [hs, step1_done]
      have hl : locate L p (e :: es) best = .inl (L.value e (g p e)) := by simp [locate, hg, h1]
      rw [hl]
      exact ⟨rfl, fun b h => by cases h⟩
    · by_cases h2 : improves (L.dist (g p e)) best = true
      · have hs : step1 L g p (none, best) e = (none, some (L.dist (g p e), g p e, e)) := by simp [step1, pointUpdate, h1, h2]
        have hl : locate L p (e :: es) best = locate L p es (some (L.dist (g p e), g p e, e)) := by simp [locate, hg, h1, h2]
        rw [hs, hl]
        exact ih _
      · have hs : step1 L g p (none, best) e = (none, best) := by simp [step1, pointUpdate, h1, h2]
        have hl : locate L p (e :: es) best = locate L p es best := by simp [locate, hg, h1, h2]
        rw [hs, hl]
        exact ih _

/-- Masked assignment: entries at distinct indices are changed, the others stay. -/
theorem foldl_update_getD {σ : Type} (s0 : σ) (u : ℕ → σ → σ) (idx : List ℕ) (hnd : idx.Nodup) (st : List σ) (i : ℕ) (hi : i < st.length) :
    (idx.foldl (fun st j => st.set j (u j (st.getD j s0))) st).getD i s0 = if i ∈ idx then u i (st.getD i s0) else st.getD i s0 := by
  induction idx generalizing st with
  | nil => simp
  | cons a idx ih =>
    rw [List.foldl_cons]
    have hn := List.nodup_cons.1 hnd
    rw [ih hn.2 _ (by simpa using hi)]
    by_cases h : i = a
    · subst h
      rw [if_neg hn.1, if_pos (by simp)]
      rw [List.getD_eq_getElem _ _ (by simpa using hi)]
      simp
    · have : (st.set a (u a (st.getD a s0))).getD i s0 = st.getD i s0 := by
        rw [List.getD_eq_getElem _ _ (by simpa using hi), List.getD_eq_getElem _ _ hi, List.getElem_set_ne (Ne.symm h)]
      rw [this]
      simp [h]

theorem foldl_update_length {σ : Type} (s0 : σ) (u : ℕ → σ → σ) (idx : List ℕ) (st : List σ) :
    (idx.foldl (fun st j => st.set j (u j (st.getD j s0))) st).length = st.length := by
  induction idx generalizing st with
  | nil => rfl
  | cons a idx ih => rw [List.foldl_cons, ih, List.length_set]

theorem zip_zip_map {α β γ : Type} (idx : List α) (u : α → β) (v : α → γ) :
    idx.zip ((idx.map u).zip (idx.map v)) = idx.map fun i => (i, u i, v i) := by
  induction idx with
  | nil => rfl
  | cons a idx ih => simp [ih]

/-- One round of the batch, point by point. -/
theorem batchStep_getD (L : Locator P X K) (g : P → ℕ → X) (hb : ∀ ps es, L.inverseBatch ps es = some (List.zipWith g ps es))
    (points : List P) (d : P) (cand : List (List ℕ)) (st : List (Option K × NearMiss X K)) (hl : st.length = points.length) (k i : ℕ)
    (hi : i < points.length) :
    (batchStep L points d cand st k).getD i (none, none) =
      step1 L g (points.getD i d) (st.getD i (none, none)) ((cand.getD i []).getD k 0) ∧
    (batchStep L points d cand st k).length = points.length := by
  unfold batchStep
  simp only [hb]
  rw [zipWith_map_both, zip_zip_map, List.foldl_map]
  constructor
  · rw [foldl_update_getD (none, none)
      (fun j s => pointUpdate L ((cand.getD j []).getD k 0) (g (points.getD j d) ((cand.getD j []).getD k 0)) s) _
      (List.nodup_range.filter _) st i (by omega)]
    unfold step1
    by_cases h : (st.getD i (none, none)).1.isSome = true
    · rw [if_pos h, if_neg]
      simp only [List.mem_filter, List.mem_range, not_and]
      intro _ hn
      rw [Option.isNone_iff_eq_none] at hn
      rw [hn] at h
      simp at h
    · rw [if_neg h, if_pos]
      simp only [List.mem_filter, List.mem_range]
      refine ⟨hi, ?_⟩
      simpa using h
  · rw [foldl_update_length (none, none)
      (fun j s => pointUpdate L ((cand.getD j []).getD k 0) (g (points.getD j d) ((cand.getD j []).getD k 0)) s), hl]

theorem batch_fold (L : Locator P X K) (g : P → ℕ → X) (hb : ∀ ps es, L.inverseBatch ps es = some (List.zipWith g ps es))
    (points : List P) (d : P) (cand : List (List ℕ)) (n : ℕ) (i : ℕ) (hi : i < points.length) :
    ((List.range n).foldl (batchStep L points d cand) (points.map fun _ => (none, none))).getD i (none, none) =
      ((List.range n).map fun k => (cand.getD i []).getD k 0).foldl (step1 L g (points.getD i d)) (none, none) ∧
    ((List.range n).foldl (batchStep L points d cand) (points.map fun _ => (none, none))).length = points.length := by
  induction n with
  | zero =>
    constructor
    · simp [List.getD_eq_getElem, hi]
    · simp
  | succ n ih =>
    rw [List.range_succ, List.foldl_append, List.foldl_cons, List.foldl_nil, List.map_append, List.foldl_append, ← ih.1]
    exact batchStep_getD L g hb points d cand _ ih.2 n i hi

/-- When the inverse maps of a batch are those of its points, the batch gives the densities of the points. -/
theorem densityBatch_eq (L : Locator P X K) (g : P → ℕ → X) (hg : ∀ p e, L.inverse p e = some (g p e))
    (hb : ∀ ps es, L.inverseBatch ps es = some (List.zipWith g ps es)) (candidates : P → List ℕ) (n : ℕ) (far : P → K) (d : P)
    (points : List P) (hc : ∀ p ∈ points, (candidates p).length = n) :
    densityBatch L candidates n far d points = points.map (densitySingle L candidates far) := by
  unfold densityBatch
  simp only
  have hlen : ((List.range n).foldl (batchStep L points d (points.map candidates)) (points.map fun _ => (none, none))).length =
      points.length := by
    rcases Nat.eq_zero_or_pos points.length with h | h
    · have : points = [] := List.length_eq_zero_iff.1 h
      subst this
      clear hc
      induction n with
      | zero => rfl
      | succ n ih =>
        rw [List.range_succ, List.foldl_append, List.foldl_cons, List.foldl_nil]
        have := List.length_eq_zero_iff.1 ih
        rw [this]
        unfold batchStep
        simp only [hb]
        simp
    · exact (batch_fold L g hb points d (points.map candidates) n 0 h).2
  apply List.ext_getElem
  · rw [List.length_map, List.length_zip, hlen, List.length_map, min_self]
  intro i h1 h2
  have hi : i < points.length := by simpa using h2
  obtain ⟨h3, _⟩ := batch_fold L g hb points d (points.map candidates) n i hi
  rw [List.getD_eq_getElem _ _ (by rw [hlen]; exact hi)] at h3
  rw [List.getElem_map, List.getElem_zip, List.getElem_map, h3]
  have hcand : ((List.range n).map fun k => ((points.map candidates).getD i []).getD k 0) = candidates points[i] := by
    have e : (points.map candidates).getD i [] = candidates points[i] := by
      rw [List.getD_eq_getElem _ _ (by simpa using hi), List.getElem_map]
    rw [e]
    apply List.ext_getElem
    · simp [hc _ (List.getElem_mem hi)]
    · intro k h4 h5
      rw [List.getElem_map, List.getElem_range, List.getD_eq_getElem _ _ h5]
  rw [hcand, List.getD_eq_getElem _ _ hi]
  unfold densitySingle
  obtain ⟨h4, h5⟩ := locate_fold L g hg points[i] (candidates points[i]) none
  cases hloc : locate L points[i] (candidates points[i]) none with
  | inl v =>
    rw [hloc] at h4
    simp only at h4
    rw [← h4]
  | inr b =>
    rw [hloc] at h4
    simp only at h4
    rw [← h4, h5 b hloc]

end Batch

section Linear
variable {K : Type} [Field K] [LinearOrder K] {d : ℕ}

/-- Coordinates and density of the `j`-th node of element `e`. -/
def nodeAt (A : DensityArgs K d) (e j : ℕ) : Pt K d := A.points.getD ((A.cells.getD e []).getD j 0) fun _ => 0

/-- See `nodeAt`. -/
def rhoAt (A : DensityArgs K d) (e j : ℕ) : K := A.rho.getD ((A.cells.getD e []).getD j 0) 0

/-- A mesh of linear triangles in the plane or of linear tetrahedra in space. -/
def LinearMesh (A : DensityArgs K d) : Prop := A.eleType = .TET4 ∧ d = 3 ∨ A.eleType = .TRI3 ∧ d = 2

/-- `w` are the barycentric coordinates of `p` in element `e`. -/
def Barycentric (A : DensityArgs K d) (e : ℕ) (w : Fin (d + 1) → K) (p : Pt K d) : Prop :=
  ∑ j, w j = 1 ∧ ∀ k, ∑ j : Fin (d + 1), w j * nodeAt A e j k = p k

/-- Barycentric coordinates from the reference point. -/
def weightsOf (xi : Pt K d) : Fin (d + 1) → K := Fin.cons (1 - ∑ i, xi i) xi

theorem weightsOf_sum (xi : Pt K d) : ∑ j, weightsOf xi j = 1 := by
  rw [Fin.sum_univ_succ]
  simp [weightsOf]

theorem linear_order {A : DensityArgs K d} (hA : LinearMesh A) : A.eleType.reOrder = List.range (d + 1) := by
  rcases hA with ⟨h, rfl⟩ | ⟨h, rfl⟩ <;> rw [h] <;> rfl

theorem linear_simplex {A : DensityArgs K d} (hA : LinearMesh A) : A.linearSimplex = true := by
  rcases hA with ⟨h, _⟩ | ⟨h, _⟩ <;> simp [DensityArgs.linearSimplex, h]

theorem linear_isSimplex {A : DensityArgs K d} (hA : LinearMesh A) : A.eleType.isSimplex = true := by
  rcases hA with ⟨h, _⟩ | ⟨h, _⟩ <;> rw [h] <;> rfl

theorem elemNodes_getD {A : DensityArgs K d} (hA : LinearMesh A) (e j : ℕ) (hj : j < d + 1) :
    (A.elemNodes e).getD j (fun _ => 0) = nodeAt A e j := by
  unfold DensityArgs.elemNodes nodeAt
  rw [linear_order hA, List.getD_eq_getElem _ _ (by simpa using hj)]
  simp

theorem edgeMatrix_apply {A : DensityArgs K d} (hA : LinearMesh A) (e : ℕ) (k i : Fin d) :
    A.edgeMatrix e k i = nodeAt A e (i + 1) k - nodeAt A e 0 k := by
  simp only [DensityArgs.edgeMatrix, Matrix.of_apply]
  rw [elemNodes_getD hA e _ (by omega), elemNodes_getD hA e _ (by omega)]

theorem zipWith_sum_ofFn {n : ℕ} (u v : Fin n → K) : (List.zipWith (· * ·) (List.ofFn u) (List.ofFn v)).sum = ∑ j, u j * v j := by
  induction n with
  | zero => simp
  | succ n ih => rw [List.ofFn_succ, List.ofFn_succ, List.zipWith_cons_cons, List.sum_cons, ih, Fin.sum_univ_succ]

theorem interpolated_eq {A : DensityArgs K d} (hA : LinearMesh A) (e : ℕ) (xi : Pt K d) :
    A.interpolated e xi = ∑ j : Fin (d + 1), weightsOf xi j * rhoAt A e j := by
  unfold DensityArgs.interpolated
  rw [if_pos (linear_simplex hA)]
  have h1 : (1 - ∑ i, xi i) :: List.ofFn xi = List.ofFn (weightsOf xi) := by
    rw [List.ofFn_succ]
    simp [weightsOf]
  have h2 : A.elemRho e = List.ofFn fun j : Fin (d + 1) => rhoAt A e j := by
    unfold DensityArgs.elemRho
    rw [linear_order hA, List.ofFn_eq_map, List.finRange_eq_pmap_range]
    rw [List.map_pmap]
    rw [List.pmap_eq_map]
    rfl
  rw [h1, h2, zipWith_sum_ofFn]

theorem barycentric_solves {A : DensityArgs K d} (hA : LinearMesh A) (e : ℕ) (hdet : (A.edgeMatrix e).det ≠ 0) (p : Pt K d) :
    (A.edgeMatrix e).mulVec (A.barycentric p e) = fun k => p k - nodeAt A e 0 k := by
  have h : A.barycentric p e = (A.edgeMatrix e).det⁻¹ • (A.edgeMatrix e).adjugate.mulVec fun k => p k - nodeAt A e 0 k := by
    funext i
    simp only [DensityArgs.barycentric, Pi.smul_apply, smul_eq_mul]
    rw [elemNodes_getD hA e 0 (by omega)]
    rw [div_eq_inv_mul]
  rw [h, Matrix.mulVec_smul, Matrix.mulVec_mulVec, Matrix.mul_adjugate, Matrix.smul_mulVec, Matrix.one_mulVec, smul_smul,
    inv_mul_cancel₀ hdet, one_smul]

theorem barycentric_weights {A : DensityArgs K d} (hA : LinearMesh A) (e : ℕ) (hdet : (A.edgeMatrix e).det ≠ 0) (p : Pt K d) :
    Barycentric A e (weightsOf (A.barycentric p e)) p := by
  refine ⟨weightsOf_sum _, fun k => ?_⟩
  have h := congrFun (barycentric_solves hA e hdet p) k
  simp only [Matrix.mulVec, dotProduct, edgeMatrix_apply hA] at h
  rw [Fin.sum_univ_succ]
  simp only [weightsOf, Fin.cons_zero, Fin.cons_succ, Fin.val_zero, Fin.val_succ]
  have h2 : ∑ i : Fin d, A.barycentric p e i * nodeAt A e (i + 1) k =
      ∑ i : Fin d, (nodeAt A e (i + 1) k - nodeAt A e 0 k) * A.barycentric p e i + (∑ i, A.barycentric p e i) * nodeAt A e 0 k := by
    rw [Finset.sum_mul, ← Finset.sum_add_distrib]
    apply Finset.sum_congr rfl
    intro i _
    ring
  rw [h2, h]
  ring

/-- Barycentric coordinates are unique. -/
theorem barycentric_unique {A : DensityArgs K d} (hA : LinearMesh A) (e : ℕ) (hdet : (A.edgeMatrix e).det ≠ 0) (p : Pt K d)
    (w : Fin (d + 1) → K) (hw : Barycentric A e w p) : w = weightsOf (A.barycentric p e) := by
  have h1 : (A.edgeMatrix e).mulVec (fun i => w i.succ) = fun k => p k - nodeAt A e 0 k := by
    funext k
    have h := hw.2 k
    have hs := hw.1
    rw [Fin.sum_univ_succ] at h hs
    simp only [Matrix.mulVec, dotProduct, edgeMatrix_apply hA]
    simp only [Fin.val_zero, Fin.val_succ] at h
    have h2 : ∑ i : Fin d, (nodeAt A e (i + 1) k - nodeAt A e 0 k) * w i.succ =
        ∑ i : Fin d, w i.succ * nodeAt A e (i + 1) k - (∑ i : Fin d, w i.succ) * nodeAt A e 0 k := by
      rw [Finset.sum_mul, ← Finset.sum_sub_distrib]
      apply Finset.sum_congr rfl
      intro i _
      ring
    rw [h2, ← h]
    have : w 0 = 1 - ∑ i : Fin d, w i.succ := by rw [← hs]; ring
    rw [this]
    ring
  have h2 : (fun i => w i.succ) = A.barycentric p e := by
    have h3 := h1.trans (barycentric_solves hA e hdet p).symm
    have h4 := congrArg ((A.edgeMatrix e).adjugate.mulVec ·) h3
    simp only [Matrix.mulVec_mulVec, Matrix.adjugate_mul, Matrix.smul_mulVec, Matrix.one_mulVec] at h4
    funext i
    have h5 := congrFun h4 i
    simp only [Pi.smul_apply, smul_eq_mul] at h5
    exact mul_left_cancel₀ hdet h5
  funext j
  refine Fin.cases ?_ (fun i => ?_) j
  · simp only [weightsOf, Fin.cons_zero]
    have hs := hw.1
    rw [Fin.sum_univ_succ] at hs
    rw [← h2, ← hs]
    ring
  · simp only [weightsOf, Fin.cons_succ]
    rw [← h2]

theorem foldl_max_lt {α : Type} (f : α → K) (l : List α) (a c : K) :
    l.foldl (fun m i => max m (f i)) a < c ↔ a < c ∧ ∀ i ∈ l, f i < c := by
  induction l generalizing a with
  | nil => simp
  | cons x l ih =>
    rw [List.foldl_cons, ih, max_lt_iff]
    constructor
    · rintro ⟨⟨h1, h2⟩, h3⟩
      exact ⟨h1, fun i hi => (List.mem_cons.1 hi).elim (fun e => e ▸ h2) (h3 i)⟩
    · rintro ⟨h1, h2⟩
      exact ⟨⟨h1, h2 x (by simp)⟩, fun i hi => h2 i (by simp [hi])⟩

variable [IsStrictOrderedRing K]

theorem insideRef_simplex {e : EleType} (he : e.isSimplex = true) (xi : Pt K d) :
    insideRef e xi = true ↔ ∀ j, -(1 / 10 ^ 6) ≤ weightsOf xi j := by
  unfold insideRef
  rw [if_pos he]
  simp only [Bool.and_eq_true, List.all_eq_true, List.mem_finRange, decide_eq_true_eq, true_imp_iff]
  constructor
  · rintro ⟨h1, h2⟩ j
    refine Fin.cases ?_ (fun i => ?_) j
    · simp only [weightsOf, Fin.cons_zero]
      linarith
    · simpa [weightsOf] using h1 i
  · intro h
    refine ⟨fun i => by simpa [weightsOf] using h i.succ, ?_⟩
    have := h 0
    simp only [weightsOf, Fin.cons_zero] at this
    linarith

theorem refDistance_simplex {e : EleType} (he : e.isSimplex = true) (xi : Pt K d) (c : K) (hc : 0 < c) :
    refDistance e xi < c ↔ ∀ j, -c < weightsOf xi j := by
  unfold refDistance
  simp only
  rw [if_pos he, max_lt_iff, foldl_max_lt]
  simp only [List.mem_finRange, true_imp_iff]
  constructor
  · rintro ⟨⟨_, h1⟩, h2⟩ j
    refine Fin.cases ?_ (fun i => ?_) j
    · simp only [weightsOf, Fin.cons_zero]
      linarith
    · simp only [weightsOf, Fin.cons_succ]
      linarith [h1 i]
  · intro h
    refine ⟨⟨hc, fun i => ?_⟩, ?_⟩
    · have := h i.succ
      simp only [weightsOf, Fin.cons_succ] at this
      linarith
    · have := h 0
      simp only [weightsOf, Fin.cons_zero] at this
      linarith

theorem clampRef_simplex {e : EleType} (he : e.isSimplex = true) (xi : Pt K d) (j : Fin (d + 1)) : 0 ≤ weightsOf (clampRef e xi) j := by
  unfold clampRef
  rw [if_pos he]
  simp only
  have hy : ∀ i, 0 ≤ max (xi i) 0 := fun i => le_max_right _ _
  split
  · rename_i h
    have hs : 0 < ∑ i, max (xi i) 0 := lt_trans zero_lt_one h
    refine Fin.cases ?_ (fun i => ?_) j
    · simp only [weightsOf, Fin.cons_zero]
      rw [← Finset.sum_div, div_self hs.ne', sub_self]
    · simp only [weightsOf, Fin.cons_succ]
      exact div_nonneg (hy i) hs.le
  · rename_i h
    refine Fin.cases ?_ (fun i => ?_) j
    · simp only [weightsOf, Fin.cons_zero]
      linarith [not_lt.1 h]
    · simp only [weightsOf, Fin.cons_succ]
      exact hy i

/-- How the search over candidates ends. -/
theorem locate_cases {P X : Type} (L : Locator P X K) (g : P → ℕ → X) (hg : ∀ p e, L.inverse p e = some (g p e)) (p : P) (es : List ℕ)
    (best : NearMiss X K) :
    (∃ e ∈ es, L.inside (g p e) = true ∧ locate L p es best = .inl (L.value e (g p e))) ∨
    ((∀ e ∈ es, L.inside (g p e) = false) ∧ ∃ b, locate L p es best = .inr b ∧
      (b = best ∨ ∃ e ∈ es, b = some (L.dist (g p e), g p e, e))) := by
  induction es generalizing best with
  | nil => exact Or.inr ⟨by simp, best, rfl, Or.inl rfl⟩
  | cons e es ih =>
    by_cases h1 : L.inside (g p e) = true
    · exact Or.inl ⟨e, by simp, h1, by simp [locate, hg, h1]⟩
    · have h1' : L.inside (g p e) = false := by simpa using h1
      by_cases h2 : improves (L.dist (g p e)) best = true
      · have hl : locate L p (e :: es) best = locate L p es (some (L.dist (g p e), g p e, e)) := by simp [locate, hg, h1, h2]
        rw [hl]
        rcases ih (some (L.dist (g p e), g p e, e)) with ⟨x, hx, h3, h4⟩ | ⟨h3, b, h4, h5⟩
        · exact Or.inl ⟨x, by simp [hx], h3, h4⟩
        · refine Or.inr ⟨fun x hx => (List.mem_cons.1 hx).elim (fun h => h ▸ h1') (h3 x), b, h4, Or.inr ?_⟩
          rcases h5 with h5 | ⟨x, hx, h5⟩
          · exact ⟨e, by simp, h5⟩
          · exact ⟨x, by simp [hx], h5⟩
      · have hl : locate L p (e :: es) best = locate L p es best := by simp [locate, hg, h1, h2]
        rw [hl]
        rcases ih best with ⟨x, hx, h3, h4⟩ | ⟨h3, b, h4, h5⟩
        · exact Or.inl ⟨x, by simp [hx], h3, h4⟩
        · refine Or.inr ⟨fun x hx => (List.mem_cons.1 hx).elim (fun h => h ▸ h1') (h3 x), b, h4, ?_⟩
          rcases h5 with h5 | ⟨x, hx, h5⟩
          · exact Or.inl h5
          · exact Or.inr ⟨x, by simp [hx], h5⟩

omit [IsStrictOrderedRing K] in
theorem linear_inverse {A : DensityArgs K d} (hA : LinearMesh A) (p : Pt K d) (e : ℕ) :
    A.locator.inverse p e = some (A.barycentric p e) := by
  show (if A.linearSimplex then _ else _) = _
  rw [if_pos (linear_simplex hA)]

omit [IsStrictOrderedRing K] in
theorem linear_inverseBatch {A : DensityArgs K d} (hA : LinearMesh A) (ps : List (Pt K d)) (es : List ℕ) :
    A.locator.inverseBatch ps es = some (List.zipWith A.barycentric ps es) := by
  show (if A.linearSimplex then _ else _) = _
  rw [if_pos (linear_simplex hA)]

/-- The density at a point: interpolated in an element that contains the point up to the tolerance, interpolated at a point of an
element close by, or the density of points far from the mesh. -/
theorem density_cases {A : DensityArgs K d} (hA : LinearMesh A) (p : Pt K d) :
    (∃ e ∈ A.candidates p, (∀ j, -(1 / 10 ^ 6) ≤ weightsOf (A.barycentric p e) j) ∧
      densitySingle A.locator A.candidates A.farDensity p = ∑ j : Fin (d + 1), weightsOf (A.barycentric p e) j * rhoAt A e j) ∨
    ((∀ e ∈ A.candidates p, ¬ ∀ j, -(1 / 10 ^ 6) ≤ weightsOf (A.barycentric p e) j) ∧
      ((∃ e ∈ A.candidates p, (∀ j, -(1 / 2) < weightsOf (A.barycentric p e) j) ∧ ∃ w : Fin (d + 1) → K, (∀ j, 0 ≤ w j) ∧ ∑ j, w j = 1 ∧
        densitySingle A.locator A.candidates A.farDensity p = ∑ j : Fin (d + 1), w j * rhoAt A e j) ∨
      densitySingle A.locator A.candidates A.farDensity p = A.farDensity p)) := by
  have hs := linear_isSimplex hA
  unfold densitySingle
  rcases locate_cases A.locator A.barycentric (linear_inverse hA) p (A.candidates p) none with ⟨e, he, h1, h2⟩ | ⟨h1, b, h2, h3⟩
  · refine Or.inl ⟨e, he, (insideRef_simplex hs _).1 h1, ?_⟩
    rw [h2]
    exact interpolated_eq hA e _
  · refine Or.inr ⟨fun e he h => ?_, ?_⟩
    · have h4 : insideRef A.eleType (A.barycentric p e) = false := h1 e he
      rw [(insideRef_simplex hs _).2 h] at h4
      cases h4
    · rw [h2]
      rcases h3 with rfl | ⟨e, he, rfl⟩
      · exact Or.inr rfl
      · simp only [settle]
        split
        · rename_i hlt
          refine Or.inl ⟨e, he, ?_, weightsOf (clampRef A.eleType (A.barycentric p e)), clampRef_simplex hs _, weightsOf_sum _, ?_⟩
          · exact (refDistance_simplex hs _ _ (by positivity)).1 hlt
          · exact interpolated_eq hA e _
        · exact Or.inr rfl

/-- What a successful construction returns. -/
theorem field_ok {A : DensityArgs K d} {f : Sdf K d} (hf : A.field = .ok f) :
    (∀ p, f.call p = A.threshold - densitySingle A.locator A.candidates A.farDensity p) ∧
    (∀ ps, f.evaluate ps = (densityBatch A.locator A.candidates (min 16 A.cells.length) A.farDensity (fun _ => 0) ps).map
      fun x => A.threshold - x) ∧ f.bounds = .ok (A.lower, A.upper) ∧ A.points ≠ [] ∧
    (A.linearSimplex = true → ∀ e < A.cells.length, (A.edgeMatrix e).det ≠ 0) := by
  unfold DensityArgs.field at hf
  split at hf
  · cases hf
  · split at hf
    · cases hf
    · rename_i h1 h2
      have := Except.ok.inj hf
      subst this
      refine ⟨fun _ => rfl, fun _ => rfl, rfl, h1, fun hl e he hd => h2 ⟨hl, ?_⟩⟩
      rw [List.any_eq_true]
      exact ⟨e, List.mem_range.2 he, by simpa using hd⟩

/-- **C99** (interpolation). If one of the candidate elements contains the point, the field is the threshold minus the density
interpolated with the barycentric coordinates of the point in a candidate element that contains it up to the tolerance `1e-6`. -/
theorem C99_interpolates_partial (A : DensityArgs K d) (hA : LinearMesh A) (f : Sdf K d) (hf : A.field = .ok f) (p : Pt K d)
    (hc : ∀ e ∈ A.candidates p, e < A.cells.length)
    (hin : ∃ e ∈ A.candidates p, ∃ w, Barycentric A e w p ∧ ∀ j, 0 ≤ w j) :
    ∃ e ∈ A.candidates p, ∃ w, Barycentric A e w p ∧ (∀ j, -(1 / 10 ^ 6) ≤ w j) ∧
      f.call p = A.threshold - ∑ j : Fin (d + 1), w j * rhoAt A e j := by
  obtain ⟨h1, _, _, _, h5⟩ := field_ok hf
  have hdet := fun e he => h5 (linear_simplex hA) e (hc e he)
  rcases density_cases hA p with ⟨e, he, h2, h3⟩ | ⟨h2, _⟩
  · exact ⟨e, he, _, barycentric_weights hA e (hdet e he) p, h2, by rw [h1, h3]⟩
  · obtain ⟨e, he, w, hw, hpos⟩ := hin
    refine absurd (fun j => ?_) (h2 e he)
    rw [← barycentric_unique hA e (hdet e he) p w hw]
    have : (0 : K) ≤ 1 / 10 ^ 6 := by positivity
    linarith [hpos j]

/-- **C99** (affine densities). A nodal density that is an affine function of the position is reproduced exactly at every point of
a candidate element. -/
theorem C99_affine_exact_partial (A : DensityArgs K d) (hA : LinearMesh A) (f : Sdf K d) (hf : A.field = .ok f) (a : Pt K d) (b : K)
    (hnodes : ∀ e < A.cells.length, ∀ j ≤ d, rhoAt A e j = ∑ k, a k * nodeAt A e j k + b) (p : Pt K d)
    (hc : ∀ e ∈ A.candidates p, e < A.cells.length)
    (hin : ∃ e ∈ A.candidates p, ∃ w, Barycentric A e w p ∧ ∀ j, 0 ≤ w j) :
    f.call p = A.threshold - (∑ k, a k * p k + b) := by
  obtain ⟨e, he, w, hw, _, h⟩ := C99_interpolates_partial A hA f hf p hc hin
  rw [h]
  congr 1
  have e1 : ∀ j : Fin (d + 1), w j * rhoAt A e j = ∑ k, a k * (w j * nodeAt A e j k) + w j * b := by
    intro j
    rw [hnodes e (hc e he) j (by omega), mul_add, Finset.mul_sum]
    congr 1
    apply Finset.sum_congr rfl
    intro k _
    ring
  rw [Finset.sum_congr rfl fun j _ => e1 j, Finset.sum_add_distrib, Finset.sum_comm, ← Finset.sum_mul, hw.1, one_mul]
  congr 1
  apply Finset.sum_congr rfl
  intro k _
  rw [← Finset.mul_sum, hw.2 k]

theorem weighted_le (w u : Fin (d + 1) → K) (lo hi t : K) (hw : ∑ j, w j = 1) (ht : ∀ j, -t ≤ w j) (hu : ∀ j, lo ≤ u j ∧ u j ≤ hi) (h0 : 0 ≤ t) :
    lo - (d + 1) * t * (hi - lo) ≤ ∑ j, w j * u j ∧ ∑ j, w j * u j ≤ hi + (d + 1) * t * (hi - lo) := by
  have hlh : lo ≤ hi := (hu 0).1.trans (hu 0).2
  have hcard : ∑ _j : Fin (d + 1), t * (hi - lo) = ((d : K) + 1) * t * (hi - lo) := by
    rw [Finset.sum_const, Finset.card_univ, Fintype.card_fin, nsmul_eq_mul]
    push_cast
    ring
  constructor
  · have h1 : ∑ j, w j * u j - lo = ∑ j, w j * (u j - lo) := by
      have : ∑ j, w j * (u j - lo) = ∑ j, w j * u j - (∑ j, w j) * lo := by
        rw [Finset.sum_mul, ← Finset.sum_sub_distrib]
        exact Finset.sum_congr rfl fun j _ => by ring
      rw [this, hw, one_mul]
    have h2 : -∑ _j : Fin (d + 1), t * (hi - lo) ≤ ∑ j, w j * (u j - lo) := by
      rw [← Finset.sum_neg_distrib]
      apply Finset.sum_le_sum
      intro j _
      have a1 : 0 ≤ u j - lo := by linarith [(hu j).1]
      have a2 : u j - lo ≤ hi - lo := by linarith [(hu j).2]
      have a3 := mul_le_mul_of_nonneg_right (ht j) a1
      have a4 := mul_le_mul_of_nonneg_left a2 h0
      linarith
    rw [hcard] at h2
    linarith
  · have h1 : hi - ∑ j, w j * u j = ∑ j, w j * (hi - u j) := by
      have : ∑ j, w j * (hi - u j) = (∑ j, w j) * hi - ∑ j, w j * u j := by
        rw [Finset.sum_mul, ← Finset.sum_sub_distrib]
        exact Finset.sum_congr rfl fun j _ => by ring
      rw [this, hw, one_mul]
    have h2 : -∑ _j : Fin (d + 1), t * (hi - lo) ≤ ∑ j, w j * (hi - u j) := by
      rw [← Finset.sum_neg_distrib]
      apply Finset.sum_le_sum
      intro j _
      have a1 : 0 ≤ hi - u j := by linarith [(hu j).2]
      have a2 : hi - u j ≤ hi - lo := by linarith [(hu j).1]
      have a3 := mul_le_mul_of_nonneg_right (ht j) a1
      have a4 := mul_le_mul_of_nonneg_left a2 h0
      linarith
    rw [hcard] at h2
    linarith

omit [IsStrictOrderedRing K] in
theorem getD_range (l : List K) (lo hi : K) (h : ∀ x ∈ l, lo ≤ x ∧ x ≤ hi) (h0 : lo ≤ 0 ∧ 0 ≤ hi) (n : ℕ) :
    lo ≤ l.getD n 0 ∧ l.getD n 0 ≤ hi := by
  by_cases hn : n < l.length
  · rw [List.getD_eq_getElem _ _ hn]
    exact h _ (List.getElem_mem hn)
  · rw [List.getD_eq_default _ _ (not_lt.1 hn)]
    exact h0

/-- **C99** (range). Densities between `lo ≤ 0` and `hi ≥ 0` give, at every point in and out of the mesh, a field between
`threshold - hi` and `threshold - lo`, up to the tolerance of the containment test. -/
theorem C99_range (A : DensityArgs K d) (hA : LinearMesh A) (f : Sdf K d) (hf : A.field = .ok f) (lo hi : K) (h0 : lo ≤ 0 ∧ 0 ≤ hi)
    (hrho : ∀ x ∈ A.rho, lo ≤ x ∧ x ≤ hi) (p : Pt K d) :
    A.threshold - hi - (d + 1) * (1 / 10 ^ 6) * (hi - lo) ≤ f.call p ∧
      f.call p ≤ A.threshold - lo + (d + 1) * (1 / 10 ^ 6) * (hi - lo) := by
  obtain ⟨h1, _⟩ := field_ok hf
  rw [h1]
  have ht : (0 : K) ≤ 1 / 10 ^ 6 := by positivity
  have hr : ∀ e j, lo ≤ rhoAt A e j ∧ rhoAt A e j ≤ hi := fun e j => getD_range _ _ _ hrho h0 _
  have hm : 0 ≤ ((d : K) + 1) * (1 / 10 ^ 6) * (hi - lo) := by
    have : 0 ≤ hi - lo := by linarith [h0.1, h0.2]
    positivity
  rcases density_cases hA p with ⟨e, _, h2, h3⟩ | ⟨_, ⟨e, _, _, w, hw, hs, h3⟩ | h3⟩
  · rw [h3]
    have := weighted_le (weightsOf (A.barycentric p e)) (fun j => rhoAt A e j) lo hi _ (weightsOf_sum _) h2 (fun j => hr e j) ht
    constructor <;> linarith [this.1, this.2]
  · rw [h3]
    have := weighted_le w (fun j => rhoAt A e j) lo hi (1 / 10 ^ 6) hs (fun j => by linarith [hw j]) (fun j => hr e j) ht
    constructor <;> linarith [this.1, this.2]
  · rw [h3]
    have : lo ≤ A.farDensity p ∧ A.farDensity p ≤ hi := by
      unfold DensityArgs.farDensity
      split
      · exact h0
      · exact getD_range _ _ _ hrho h0 _
    constructor <;> linarith [this.1, this.2]

/-- **C99** (vectorised evaluation). Evaluating an array gives the values of its points, whatever the other points are. -/
theorem C99_evaluate (A : DensityArgs K d) (hA : LinearMesh A) (f : Sdf K d) (hf : A.field = .ok f)
    (hc : ∀ p, (A.candidates p).length = min 16 A.cells.length) : PointwiseEval f := by
  intro ps
  obtain ⟨h1, h2, _⟩ := field_ok hf
  rw [h2, densityBatch_eq A.locator A.barycentric (linear_inverse hA) (linear_inverseBatch hA) A.candidates _ A.farDensity _ ps
    fun p _ => hc p, List.map_map]
  apply List.map_congr_left
  intro p _
  exact (h1 p).symm

/-- **C99** (far outside). With `close_boundary`, a point more than one percent outside the bounding box, with a barycentric
coordinate of at most `-1/2` in every candidate element, is void: the field is the threshold. -/
theorem C99_far_outside_partial (A : DensityArgs K d) (hA : LinearMesh A) (f : Sdf K d) (hf : A.field = .ok f) (hcb : A.closeBoundary = true)
    (p : Pt K d) (k : Fin d)
    (hk : p k < A.lower k - (A.upper k - A.lower k) * (1 / 100) ∨ A.upper k + (A.upper k - A.lower k) * (1 / 100) < p k)
    (hc : ∀ e ∈ A.candidates p, e < A.cells.length)
    (hfar : ∀ e ∈ A.candidates p, ∃ w, Barycentric A e w p ∧ ∃ j, w j ≤ -(1 / 2)) : f.call p = A.threshold := by
  obtain ⟨h1, _, _, _, h5⟩ := field_ok hf
  have hdet := fun e he => h5 (linear_simplex hA) e (hc e he)
  have hw : ∀ e ∈ A.candidates p, ∃ j, weightsOf (A.barycentric p e) j ≤ -(1 / 2) := by
    intro e he
    obtain ⟨w, hw, j, hj⟩ := hfar e he
    exact ⟨j, by rw [← barycentric_unique hA e (hdet e he) p w hw]; exact hj⟩
  have hout : A.outsideBox p = true := by
    unfold DensityArgs.outsideBox
    rw [List.any_eq_true]
    exact ⟨k, List.mem_finRange k, by simpa using hk⟩
  rw [h1]
  rcases density_cases hA p with ⟨e, he, h2, _⟩ | ⟨_, ⟨e, he, h2, _⟩ | h3⟩
  · obtain ⟨j, hj⟩ := hw e he
    have := h2 j
    have : (1 : K) / 10 ^ 6 < 1 / 2 := by norm_num
    linarith
  · obtain ⟨j, hj⟩ := hw e he
    have := h2 j
    linarith
  · rw [h3, DensityArgs.farDensity, hcb, hout]
    simp

/-- **C99** (`close_boundary`, violated). For every mesh, a uniform density `r` gives the field `threshold - r` at every point of
the bounding box (and one percent beyond it), inside or outside the elements, whatever `close_boundary` is: a solid block, sampled
on its default bounds, has no surface, and notches and holes of the mesh are filled. -/
theorem C99_boundary_not_closed (A : DensityArgs K d) (hA : LinearMesh A) (f : Sdf K d) (hf : A.field = .ok f) (r : K)
    (hrho : A.rho = List.replicate A.points.length r) (p : Pt K d)
    (hc : ∀ e ∈ A.candidates p, ∀ j ≤ d, (A.cells.getD e []).getD j 0 < A.points.length) (hn : A.nearest p < A.points.length)
    (hp : ∀ k, A.lower k - (A.upper k - A.lower k) * (1 / 100) ≤ p k ∧ p k ≤ A.upper k + (A.upper k - A.lower k) * (1 / 100)) :
    f.call p = A.threshold - r := by
  obtain ⟨h1, _⟩ := field_ok hf
  rw [h1]
  have hget : ∀ n < A.points.length, A.rho.getD n 0 = r := by
    intro n hn
    rw [hrho, List.getD_eq_getElem _ _ (by simpa using hn), List.getElem_replicate]
  have hr : ∀ e ∈ A.candidates p, ∀ j : Fin (d + 1), rhoAt A e j = r := fun e he j => hget _ (hc e he j (by omega))
  congr 1
  rcases density_cases hA p with ⟨e, he, _, h3⟩ | ⟨_, ⟨e, he, _, w, _, hs, h3⟩ | h3⟩
  · rw [h3, Finset.sum_congr rfl fun j _ => by rw [hr e he j], ← Finset.sum_mul, weightsOf_sum, one_mul]
  · rw [h3, Finset.sum_congr rfl fun j _ => by rw [hr e he j], ← Finset.sum_mul, hs, one_mul]
  · rw [h3, DensityArgs.farDensity]
    have hout : A.outsideBox p = false := by
      unfold DensityArgs.outsideBox
      rw [List.any_eq_false]
      intro k _
      simp only [Bool.or_eq_true, decide_eq_true_eq, not_or, not_lt]
      exact ⟨(hp k).1, (hp k).2⟩
    rw [hout]
    simp [List.getD_eq_getElem?_getD]
    simpa [List.getD_eq_getElem?_getD] using hget _ hn

end Linear

/-- The best near-miss is at least as close as every candidate. -/
theorem locate_min {P X : Type} {K : Type} [LinearOrder K] [Field K] (L : Locator P X K) (g : P → ℕ → X)
    (hg : ∀ p e, L.inverse p e = some (g p e)) (p : P) (es : List ℕ) (best b : NearMiss X K) (h : locate L p es best = .inr b) :
    (∀ e ∈ es, ∃ c, b = some c ∧ c.1 ≤ L.dist (g p e)) ∧ ∀ c0, best = some c0 → ∃ c, b = some c ∧ c.1 ≤ c0.1 := by
  induction es generalizing best with
  | nil =>
    have : best = b := Sum.inr.inj h
    subst this
    exact ⟨by simp, fun c0 hc => ⟨c0, hc, le_rfl⟩⟩
  | cons e es ih =>
    by_cases h1 : L.inside (g p e) = true
    · simp [locate, hg, h1] at h
    · by_cases h2 : improves (L.dist (g p e)) best = true
      · have hl : locate L p es (some (L.dist (g p e), g p e, e)) = .inr b := by simpa [locate, hg, h1, h2] using h
        obtain ⟨i1, i2⟩ := ih _ hl
        obtain ⟨c, hc, hle⟩ := i2 _ rfl
        refine ⟨fun x hx => (List.mem_cons.1 hx).elim (fun hh => ⟨c, hc, by rw [hh]; exact hle⟩) (i1 x), ?_⟩
        intro c0 h0
        refine ⟨c, hc, hle.trans ?_⟩
        rw [h0] at h2
        simp only [improves, decide_eq_true_eq] at h2
        exact h2.le
      · have hl : locate L p es best = .inr b := by simpa [locate, hg, h1, h2] using h
        obtain ⟨i1, i2⟩ := ih _ hl
        refine ⟨fun x hx => (List.mem_cons.1 hx).elim (fun hh => ?_) (i1 x), i2⟩
        cases hb : best with
        | none => simp [improves, hb] at h2
        | some c0 =>
          obtain ⟨c, hc, hle⟩ := i2 c0 hb
          refine ⟨c, hc, hle.trans ?_⟩
          rw [hb] at h2
          simp only [improves, decide_eq_true_eq, not_lt] at h2
          rw [hh]
          exact h2

/-- **C99** (`close_boundary`, violated beyond the box). For every mesh, a uniform density `r` extends outside the mesh by half an
element: at every point whose barycentric coordinates in some candidate element are all above `-1/2`, however far outside the
bounding box, the field is `threshold - r`. -/
theorem C99_solid_extends_outside {K : Type} [Field K] [LinearOrder K] [IsStrictOrderedRing K] {d : ℕ} (A : DensityArgs K d)
    (hA : LinearMesh A) (f : Sdf K d) (hf : A.field = .ok f) (r : K)
    (hrho : A.rho = List.replicate A.points.length r) (p : Pt K d) (hcell : ∀ e ∈ A.candidates p, e < A.cells.length)
    (hc : ∀ e ∈ A.candidates p, ∀ j ≤ d, (A.cells.getD e []).getD j 0 < A.points.length)
    (hnear : ∃ e ∈ A.candidates p, ∃ w, Barycentric A e w p ∧ ∀ j, -(1 / 2) < w j) :
    f.call p = A.threshold - r := by
  obtain ⟨h1, _, _, _, h5⟩ := field_ok hf
  have hdet := fun e he => h5 (linear_simplex hA) e (hcell e he)
  have hs := linear_isSimplex hA
  have hr : ∀ e ∈ A.candidates p, ∀ j : Fin (d + 1), rhoAt A e j = r := by
    intro e he j
    unfold rhoAt
    rw [hrho, List.getD_eq_getElem _ _ (by simpa using hc e he j (by omega)), List.getElem_replicate]
  have hval : ∀ e ∈ A.candidates p, ∀ xi, A.interpolated e xi = r := by
    intro e he xi
    rw [interpolated_eq hA, Finset.sum_congr rfl fun j _ => by rw [hr e he j], ← Finset.sum_mul, weightsOf_sum, one_mul]
  rw [h1]
  congr 1
  unfold densitySingle
  rcases locate_cases A.locator A.barycentric (linear_inverse hA) p (A.candidates p) none with ⟨e, he, _, h2⟩ | ⟨_, b, h2, h3⟩
  · rw [h2]
    exact hval e he _
  · rw [h2]
    obtain ⟨e, he, w, hw, hpos⟩ := hnear
    obtain ⟨c, hb, hle⟩ := (locate_min A.locator A.barycentric (linear_inverse hA) p (A.candidates p) none b h2).1 e he
    have hd : refDistance A.eleType (A.barycentric p e) < 1 / 2 := by
      rw [refDistance_simplex hs _ _ (by positivity)]
      rw [← barycentric_unique hA e (hdet e he) p w hw]
      exact hpos
    rcases h3 with h3 | ⟨e', he', h3⟩
    · rw [h3] at hb
      cases hb
    · subst h3
      have hc' := Option.some.inj hb
      subst hc'
      simp only [settle]
      rw [if_pos (lt_of_le_of_lt hle hd)]
      exact hval e' he' _

/-- A single triangle with density one. -/
def exOneTriangle : DensityArgs ℚ 2 where
  rho := [1, 1, 1]
  points := [![0, 0], ![1, 0], ![0, 1]]
  cells := [[0, 1, 2]]
  eleType := .TRI3
  threshold := 1 / 2
  closeBoundary := true
  candidates := fun _ => [0]
  nearest := fun _ => 0

theorem exOneTriangle_det : (exOneTriangle.edgeMatrix 0).det = 1 := by
  rw [Matrix.det_fin_two]
  decide +kernel

theorem exOneTriangle_field : ∃ f, exOneTriangle.field = .ok f := by
  unfold DensityArgs.field
  rw [if_neg (by simp [exOneTriangle]), if_neg]
  · exact ⟨_, rfl⟩
  · rintro ⟨_, h⟩
    rw [List.any_eq_true] at h
    obtain ⟨e, he, h⟩ := h
    have : e = 0 := by
      have := List.mem_range.1 he
      simp [exOneTriangle] at this
      exact this
    subst this
    rw [exOneTriangle_det] at h
    simp at h

/-- The point `(-3/10, 2/10)` outside the bounding box is solid, with `close_boundary`. -/
example : ∃ f, exOneTriangle.field = .ok f ∧ f.call ![-3 / 10, 2 / 10] = -1 / 2 := by
  obtain ⟨f, hf⟩ := exOneTriangle_field
  refine ⟨f, hf, ?_⟩
  rw [C99_solid_extends_outside exOneTriangle (Or.inr ⟨rfl, rfl⟩) f hf 1 rfl ![-3 / 10, 2 / 10] (by decide) (by decide)
    ⟨0, by decide, ![11 / 10, -3 / 10, 2 / 10], ⟨by decide +kernel, by decide +kernel⟩, by decide +kernel⟩]
  decide +kernel

/-- Nodes of the fan: a large triangle, the apex `(15, -1)` of a flat triangle below it, and small triangles around the apex. -/
def exFanDensity : DensityArgs ℚ 2 where
  rho := [1, 1, 1] ++ List.replicate 16 0
  points := [![0, 0], ![30, 0], ![0, 30], ![15, -1], ![22, -2], ![21, -2], ![20, -2], ![19, -2], ![18, -2], ![17, -2], ![16, -2],
    ![15, -2], ![14, -2], ![13, -2], ![12, -2], ![11, -2], ![10, -2], ![9, -2], ![8, -2]]
  cells := [[0, 1, 2], [0, 3, 1], [3, 4, 1], [3, 5, 4], [3, 6, 5], [3, 7, 6], [3, 8, 7], [3, 9, 8], [3, 10, 9], [3, 11, 10], [3, 12, 11],
    [3, 13, 12], [3, 14, 13], [3, 15, 14], [3, 16, 15], [3, 17, 16], [3, 18, 17], [3, 0, 18]]
  eleType := .TRI3
  threshold := 1 / 2
  closeBoundary := true
  candidates := fun _ => [1, 9, 10, 8, 11, 7, 12, 6, 13, 5, 14, 4, 15, 3, 16, 2]
  nearest := fun _ => 3

/-- Three times the centroid of a triangle. -/
def tripleCentroid {K : Type} [Field K] [LinearOrder K] (A : DensityArgs K 2) (e : ℕ) (k : Fin 2) : K :=
  nodeAt A e 0 k + nodeAt A e 1 k + nodeAt A e 2 k

/-- Nine times the squared distance from a point to the centroid. -/
def centroidDist {K : Type} [Field K] [LinearOrder K] (A : DensityArgs K 2) (p : Pt K 2) (e : ℕ) : K :=
  (3 * p 0 - tripleCentroid A e 0) ^ 2 + (3 * p 1 - tripleCentroid A e 1) ^ 2

/-- **C99** (containing element missed, violated). In this mesh of positively oriented triangles the point `(15, 1/2)` lies in a
triangle whose nodes all have density one, but the centroids of sixteen other triangles are nearer; the candidates and the
nearest node are those the trees return. The field at the point is positive (void). -/
theorem C99_containing_element_missed :
    ∃ f : Sdf ℚ 2, exFanDensity.field = .ok f ∧
      (∀ e < 18, 0 < (exFanDensity.edgeMatrix e).det) ∧
      (∃ w, Barycentric exFanDensity 0 w ![15, 1 / 2] ∧ ∀ j, 0 ≤ w j) ∧ (∀ j ≤ 2, rhoAt exFanDensity 0 j = 1) ∧
      ((exFanDensity.candidates ![15, 1 / 2]).length = 16 ∧ (exFanDensity.candidates ![15, 1 / 2]).Nodup ∧
        (exFanDensity.candidates ![15, 1 / 2]).Pairwise (fun a b => centroidDist exFanDensity ![15, 1 / 2] a ≤
          centroidDist exFanDensity ![15, 1 / 2] b) ∧
        ∀ e ∈ exFanDensity.candidates ![15, 1 / 2], ∀ e' < 18, e' ∉ exFanDensity.candidates ![15, 1 / 2] →
          centroidDist exFanDensity ![15, 1 / 2] e ≤ centroidDist exFanDensity ![15, 1 / 2] e') ∧
      (∀ n < 19, ∑ k, (![15, 1 / 2] k - exFanDensity.points.getD 3 0 k) ^ 2 ≤ ∑ k, (![15, 1 / 2] k - exFanDensity.points.getD n 0 k) ^ 2) ∧
      f.call ![15, 1 / 2] = 1 / 2 := by
  have hdet : ∀ e < 18, 0 < (exFanDensity.edgeMatrix e).det := by
    have h : ∀ e < 18, 0 < exFanDensity.edgeMatrix e 0 0 * exFanDensity.edgeMatrix e 1 1 -
        exFanDensity.edgeMatrix e 0 1 * exFanDensity.edgeMatrix e 1 0 := by decide +kernel
    intro e he
    rw [Matrix.det_fin_two]
    exact h e he
  have hf : ∃ f, exFanDensity.field = .ok f := by
    unfold DensityArgs.field
    rw [if_neg (by simp [exFanDensity]), if_neg]
    · exact ⟨_, rfl⟩
    · rintro ⟨_, h⟩
      rw [List.any_eq_true] at h
      obtain ⟨e, he, h⟩ := h
      exact (hdet e (List.mem_range.1 he)).ne' (by simpa using h)
  obtain ⟨f, hf⟩ := hf
  refine ⟨f, hf, hdet, ⟨![1 - 1 / 2 - 1 / 60, 1 / 2, 1 / 60], ⟨by decide +kernel, by decide +kernel⟩, by decide +kernel⟩, by decide +kernel,
    ⟨by decide +kernel, by decide +kernel, by decide +kernel, by decide +kernel⟩, by decide +kernel, ?_⟩
  rw [(field_ok hf).1]
  have : densitySingle exFanDensity.locator exFanDensity.candidates exFanDensity.farDensity ![15, 1 / 2] = 0 := by
    decide +kernel
  rw [this]
  decide +kernel

end Verif.Props
