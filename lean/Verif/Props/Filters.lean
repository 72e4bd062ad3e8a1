import Verif.Model.Filters
import Verif.Lemmas.Arr
import Verif.Lemmas.Grid
import Verif.Props.Band
import Mathlib.Algebra.Order.Field.Rat
import Mathlib.Algebra.Order.BigOperators.Ring.Finset
import Mathlib.Data.Rat.Floor
import Mathlib.Tactic.Linarith
import Mathlib.Tactic.Ring
import Mathlib.Tactic.Positivity
import Mathlib.Tactic.FieldSimp

/-!
# C53, C54: density filter and sensitivity filter
-/

namespace Verif.Props
open Verif.Model Verif.Lemmas

/-! ### C53: the density filter -/

theorem batchRanges_rows (n batch : ℕ) (hb : 0 < batch) :
    ((batchRanges n batch).flatMap fun se => List.range' se.1 (se.2 - se.1)) = List.range n := by
  have h : ∀ m, (List.range m).flatMap (fun k => List.range' (k * batch) (min (k * batch + batch) n - k * batch))
      = List.range (min (m * batch) n) := by
    intro m
    induction m with
    | zero => simp
    | succ m ih =>
      rw [List.range_succ, List.flatMap_append, ih]
      simp only [List.flatMap_cons, List.flatMap_nil, List.append_nil]
      rw [List.range_eq_range', List.range_eq_range', add_mul, one_mul]
      rcases le_total n (m * batch) with h1 | h1
      · rw [min_eq_right h1, min_eq_right (by omega), Nat.sub_eq_zero_of_le h1]
        simp
      · rw [min_eq_left h1]
        have := List.range'_append_1 (s := 0) (m := m * batch) (n := min (m * batch + batch) n - m * batch)
        rw [Nat.zero_add] at this
        rw [this]
        congr 1
        omega
  unfold batchRanges
  rw [List.flatMap_map]
  simp only
  rw [h]
  congr 1
  rw [min_eq_right]
  have := Nat.lt_div_mul_add (a := n + batch - 1) hb
  omega

section
variable {K : Type} [Field K] [LinearOrder K] [IsStrictOrderedRing K]

/-- Specification: the filter matrix. -/
def filterMatrix (w : K → K) (dist : ℕ → ℕ → K) (radius : K) (i j : ℕ) : K := if dist i j ≤ radius then w (dist i j) else 0

/-- Specification: the weighted average with matrix `W` of a field with `n` values. -/
def weightedMean (W : ℕ → ℕ → K) (eps : K) (n : ℕ) (rho : ℕ → K) (i : ℕ) : K :=
  (∑ j ∈ Finset.range n, W i j * rho j) / ((∑ j ∈ Finset.range n, W i j) + eps)

omit [IsStrictOrderedRing K] in
theorem entries_ok (weight : K → Except PyErr K) (w : K → K) (hw : ∀ d, weight d = .ok (w d)) (dist : ℕ → ℕ → K) (n : ℕ)
    (radius : K) {batch : ℕ} (hb : 0 < batch) :
    filterEntries weight dist n radius batch = .ok ((List.range n).map fun i =>
      ((List.range n).filter fun j => decide (dist i j ≤ radius)).map fun j => (i, (j, w (dist i j)))).flatten := by
  unfold filterEntries
  rw [if_neg (by omega), batchRanges_rows n batch hb]
  rw [mapM_ok _ (fun i => ((List.range n).filter fun j => decide (dist i j ≤ radius)).map fun j => (i, (j, w (dist i j))))
    (List.range n) ?_]
  · rfl
  · intro i _
    apply mapM_ok
    intro j _
    rw [hw]
    rfl

omit [LinearOrder K] [IsStrictOrderedRing K] in
theorem sum_filter_map (l : List ℕ) (p : ℕ → Bool) (f : ℕ → K) :
    ((l.filter p).map f).sum = (l.map fun j => if p j then f j else 0).sum := by
  induction l with
  | nil => rfl
  | cons a l ih =>
    by_cases h : p a = true
    · rw [List.filter_cons_of_pos h]
      simp [ih, h]
    · rw [List.filter_cons_of_neg h]
      simp [ih, h]

omit [LinearOrder K] [IsStrictOrderedRing K] in
theorem segsum_rows (n : ℕ) (row : ℕ → List K) (i : ℕ) (hi : i < n) :
    segSumAt (((List.range n).map fun k => (row k).map fun v => (k, v)).flatten) i = (row i).sum := by
  rw [segSumAt_flatten, List.map_map]
  have h : ((fun ps => segSumAt ps i) ∘ fun k => (row k).map fun v => (k, v)) = fun k => if k = i then (row k).sum else (0 : K) := by
    funext k
    simp only [Function.comp]
    rw [segSumAt_eq_sum, List.map_map]
    by_cases hk : k = i
    · rw [if_pos hk]
      congr 1
      conv_rhs => rw [← List.map_id (row k)]
      apply List.map_congr_left
      intro v _
      simp [hk]
    · rw [if_neg hk]
      have : (row k).map ((fun p : ℕ × K => if p.1 = i then p.2 else 0) ∘ fun v => (k, v)) = (row k).map fun _ => 0 := by
        apply List.map_congr_left
        intro v _
        simp [hk]
      rw [this]
      simp
  rw [h]
  exact sum_map_ite_single List.nodup_range (List.mem_range.2 hi) fun k => (row k).sum

omit [LinearOrder K] [IsStrictOrderedRing K] in
theorem list_sum_range (n : ℕ) (f : ℕ → K) : ((List.range n).map f).sum = ∑ j ∈ Finset.range n, f j := by
  induction n with
  | zero => simp
  | succ n ih => rw [List.range_succ, List.map_append, List.sum_append, ih, Finset.sum_range_succ]; simp

/-- **C53.** The filter is the stated weighted average `Σ_j w_ij ρ_j / (Σ_j w_ij + 1e-12)` over all nodes within the radius, for all
points, weights, radii, fields and batch sizes: nothing is missed or counted twice at a batch boundary. -/
theorem C53_formula (norm : List K → K) (exp : K → K) (kind : WeightKind) (points : List (List K)) (radius : K) {batch : ℕ}
    (eps : K) (rho : List K) (hb : 0 < batch) (w : K → K) (hw : ∀ d, filterWeight exp kind radius d = .ok (w d)) :
    densityFilter norm exp kind points radius batch eps rho = .ok ((List.range points.length).map
      (weightedMean (filterMatrix w (fun i j => norm (List.zipWith (· - ·) (points.getD i []) (points.getD j []))) radius)
        eps points.length (rho.getD · 0))) := by
  unfold densityFilter
  simp only
  rw [entries_ok _ w hw _ _ _ hb]
  simp only [bind, Except.bind, pure, Except.pure, Except.ok.injEq]
  unfold applyDensityFilter
  apply List.map_congr_left
  intro i hi
  have hi' := List.mem_range.1 hi
  set dist := fun i j => norm (List.zipWith (· - ·) (points.getD i []) (points.getD j [])) with hd
  unfold weightedMean
  have key : ∀ f : ℕ → K → K, segSumAt ((((List.range points.length).map fun i =>
      ((List.range points.length).filter fun j => decide (dist i j ≤ radius)).map fun j => (i, (j, w (dist i j)))).flatten).map
        fun e => (e.1, f e.2.1 e.2.2)) i
      = ∑ j ∈ Finset.range points.length, if dist i j ≤ radius then f j (w (dist i j)) else 0 := by
    intro f
    rw [List.map_flatten, List.map_map]
    have : ((List.map fun e : ℕ × (ℕ × K) => (e.1, f e.2.1 e.2.2)) ∘ fun i =>
        ((List.range points.length).filter fun j => decide (dist i j ≤ radius)).map fun j => (i, (j, w (dist i j))))
        = fun i => (((List.range points.length).filter fun j => decide (dist i j ≤ radius)).map fun j => f j (w (dist i j))).map
          fun v => (i, v) := by
      funext k
      simp [Function.comp]
    rw [this, segsum_rows _ _ i hi', sum_filter_map, list_sum_range]
    simp
  rw [key fun j v => v * rho.getD j 0, key fun _ v => v]
  unfold filterMatrix
  congr 1
  apply Finset.sum_congr rfl
  intro j _
  split_ifs <;> simp

/-- **C53.** Fields with values in `[0, M]` stay there, for every matrix with nonnegative entries and positive regularisation. -/
theorem C53_bounded (W : ℕ → ℕ → K) (hW : ∀ i j, 0 ≤ W i j) {eps : K} (he : 0 < eps) (n : ℕ) (rho : ℕ → K) (M : K)
    (hr : ∀ j < n, 0 ≤ rho j ∧ rho j ≤ M) (i : ℕ) (hM : 0 ≤ M) :
    0 ≤ weightedMean W eps n rho i ∧ weightedMean W eps n rho i ≤ M := by
  unfold weightedMean
  have hS : 0 ≤ ∑ j ∈ Finset.range n, W i j := Finset.sum_nonneg fun j _ => hW i j
  constructor
  · apply div_nonneg
    · exact Finset.sum_nonneg fun j hj => mul_nonneg (hW i j) (hr j (Finset.mem_range.1 hj)).1
    · linarith
  · rw [div_le_iff₀ (by linarith)]
    have : ∑ j ∈ Finset.range n, W i j * rho j ≤ ∑ j ∈ Finset.range n, W i j * M :=
      Finset.sum_le_sum fun j hj => mul_le_mul_of_nonneg_left (hr j (Finset.mem_range.1 hj)).2 (hW i j)
    rw [← Finset.sum_mul] at this
    nlinarith

/-- **C53.** The filter is monotone. -/
theorem C53_monotone (W : ℕ → ℕ → K) (hW : ∀ i j, 0 ≤ W i j) {eps : K} (he : 0 < eps) (n : ℕ) (rho rho' : ℕ → K)
    (hr : ∀ j < n, rho j ≤ rho' j) (i : ℕ) : weightedMean W eps n rho i ≤ weightedMean W eps n rho' i := by
  unfold weightedMean
  have hS : 0 ≤ ∑ j ∈ Finset.range n, W i j := Finset.sum_nonneg fun j _ => hW i j
  apply div_le_div_of_nonneg_right _ (by linarith)
  exact Finset.sum_le_sum fun j hj => mul_le_mul_of_nonneg_left (hr j (Finset.mem_range.1 hj)) (hW i j)

omit [LinearOrder K] [IsStrictOrderedRing K] in
/-- **C53.** The filter is linear. -/
theorem C53_linear (W : ℕ → ℕ → K) (eps : K) (n : ℕ) (rho rho' : ℕ → K) (a b : K) (i : ℕ) :
    weightedMean W eps n (fun j => a * rho j + b * rho' j) i
      = a * weightedMean W eps n rho i + b * weightedMean W eps n rho' i := by
  unfold weightedMean
  rw [← mul_div_assoc, ← mul_div_assoc, ← add_div]
  congr 1
  rw [Finset.mul_sum, Finset.mul_sum, ← Finset.sum_add_distrib]
  apply Finset.sum_congr rfl
  intro j _
  ring

omit [LinearOrder K] [IsStrictOrderedRing K] in
/-- **C53.** A constant field is reproduced up to the regularisation: the relative error is `eps / (Σ_j w_ij + eps)`. -/
theorem C53_constant (W : ℕ → ℕ → K) (eps : K) (n : ℕ) (a : K) (i : ℕ) (h : (∑ j ∈ Finset.range n, W i j) + eps ≠ 0) :
    weightedMean W eps n (fun _ => a) i = a - a * (eps / ((∑ j ∈ Finset.range n, W i j) + eps)) := by
  unfold weightedMean
  rw [← Finset.sum_mul]
  field_simp
  ring

/-- **C53.** All three weights are nonnegative, so that the theorems above apply; other names raise if there is any neighbour. -/
theorem C53_weights (exp : K → K) (hexp : ∀ y, 0 ≤ exp y) (kind : WeightKind) (radius : K) :
    (kind ≠ .other → ∃ w : K → K, (∀ d, filterWeight exp kind radius d = .ok (w d)) ∧ ∀ d, 0 ≤ w d) ∧
    (kind = .other → ∀ d, filterWeight exp kind radius d = .error .valueError) := by
  cases kind with
  | cone => exact ⟨fun _ => ⟨fun d => max 0 (radius - d), fun _ => rfl, fun _ => le_max_left _ _⟩, fun h => by cases h⟩
  | gaussian => exact ⟨fun _ => ⟨fun d => exp (-(d / radius) ^ 2), fun _ => rfl, fun _ => hexp _⟩, fun h => by cases h⟩
  | constant => exact ⟨fun _ => ⟨fun _ => 1, fun _ => rfl, fun _ => zero_le_one⟩, fun h => by cases h⟩
  | other => exact ⟨fun h => absurd rfl h, fun _ _ => rfl⟩

/-- **C53.** All of it for the filter itself: with any of the three weights, fields in `[0, M]` are mapped into `[0, M]`. -/
theorem C53_filter_bounded (norm : List K → K) (exp : K → K) (hexp : ∀ y, 0 ≤ exp y) (kind : WeightKind) (hk : kind ≠ .other)
    (points : List (List K)) (radius : K) {batch : ℕ} (hb : 0 < batch) {eps : K} (he : 0 < eps) (rho : List K) (M : K)
    (hl : rho.length = points.length) (hM : 0 ≤ M) (hr : ∀ y ∈ rho, 0 ≤ y ∧ y ≤ M) :
    ∃ out, densityFilter norm exp kind points radius batch eps rho = .ok out ∧ out.length = rho.length ∧
      ∀ y ∈ out, 0 ≤ y ∧ y ≤ M := by
  obtain ⟨w, hw, hw0⟩ := (C53_weights exp hexp kind radius).1 hk
  refine ⟨_, C53_formula norm exp kind points radius eps rho hb w hw, by simp [hl], ?_⟩
  intro y hy
  obtain ⟨i, hi, rfl⟩ := List.mem_map.1 hy
  apply C53_bounded _ _ he _ _ _ _ _ hM
  · intro i j
    unfold filterMatrix
    split_ifs
    · exact hw0 _
    · exact le_rfl
  · intro j hj
    rw [List.getD_eq_getElem _ _ (by omega)]
    exact hr _ (List.getElem_mem _)

/-- **C53 fails.** With radius 0 and the default cone weight every field is mapped to the zero field, not to itself. -/
theorem C53_zero_radius (norm : List K → K) (hn : ∀ v, 0 ≤ norm v) (exp : K → K) (points : List (List K)) {batch : ℕ}
    (hb : 0 < batch) (eps : K) (rho : List K) :
    densityFilter norm exp .cone points 0 batch eps rho = .ok (List.replicate points.length 0) := by
  rw [C53_formula norm exp .cone points 0 eps rho hb (fun d => max 0 (0 - d)) (fun _ => rfl)]
  congr 1
  apply List.eq_replicate_iff.2
  refine ⟨by simp, ?_⟩
  intro y hy
  obtain ⟨i, hi, rfl⟩ := List.mem_map.1 hy
  unfold weightedMean
  rw [Finset.sum_eq_zero, zero_div]
  intro j _
  unfold filterMatrix
  split_ifs
  · simp only
    rw [max_eq_left, zero_mul]
    have := hn (List.zipWith (· - ·) (points.getD i []) (points.getD j []))
    linarith
  · rw [zero_mul]

end

/-- **C53 fails.** The docstring says that the filter preserves the integral of the density field; a unit mass at the end of a bar of
three nodes is filtered to less than 0.96. -/
theorem C53_mass_not_conserved :
    let out := (densityFilter (fun v : List ℚ => (v.map fun y => |y|).sum) (fun _ => 1) .cone [[0], [1], [2]] (3 / 2) 500
      (1 / 1000000000000) [1, 0, 0]).toOption.getD []
    out.length = 3 ∧ out.sum < 96 / 100 := by
  decide +kernel

/-- The same filter on a uniform field of three nodes with batches of two rows. -/
example : (densityFilter (fun v : List ℚ => (v.map fun y => |y|).sum) (fun _ => 1) .cone [[0], [1], [2]] (3 / 2) 2 1
    [1, 1, 1]).toOption = some [2 / 3, 5 / 7, 2 / 3] := by
  decide +kernel

/-! ### C54: the sensitivity filter -/

section
variable {K : Type} [Field K] [LinearOrder K] [IsStrictOrderedRing K] [FloorRing K]

/-- Specification: the squared distance between two cells in units of the cell size. -/
def cellDist2 (g : Grid) (e m : ℕ) : ℕ :=
  let a := g.cellIjk e
  let b := g.cellIjk m
  ((a.1 : ℤ) - b.1).natAbs ^ 2 + ((a.2.1 : ℤ) - b.2.1).natAbs ^ 2 + ((a.2.2 : ℤ) - b.2.2).natAbs ^ 2

/-- Specification: the cone weight of cell `m` as seen from cell `e`. -/
def coneOf (sqrt : ℕ → K) (g : Grid) (rmin : K) (e m : ℕ) : K := max 0 (rmin - sqrt (cellDist2 g e m))

/-- The offset from one cell to another. -/
def offsetTo (g : Grid) (e m : ℕ) : ℤ × ℤ × ℤ :=
  (((g.cellIjk m).1 : ℤ) - (g.cellIjk e).1, ((g.cellIjk m).2.1 : ℤ) - (g.cellIjk e).2.1,
    ((g.cellIjk m).2.2 : ℤ) - (g.cellIjk e).2.2)

omit [IsStrictOrderedRing K] [FloorRing K] in
theorem coneWeight_offset (sqrt : ℕ → K) (g : Grid) (rmin : K) (e m : ℕ) :
    coneWeight sqrt rmin (offsetTo g e m) = coneOf sqrt g rmin e m := by
  unfold coneWeight coneOf cellDist2 offsetTo
  simp only
  congr 3
  zify
  rw [Int.toNat_of_nonneg (add_nonneg (add_nonneg (mul_self_nonneg _) (mul_self_nonneg _)) (mul_self_nonneg _))]
  simp only [sq_abs]
  ring

theorem cellIjk_lt (g : Grid) (e : ℕ) (he : e < g.numCells) :
    (g.cellIjk e).1 < g.nx ∧ (g.cellIjk e).2.1 < g.ny ∧ (g.cellIjk e).2.2 < g.nz := by
  unfold Grid.cellIjk
  unfold Grid.numCells at he
  have hz : 0 < g.nz := by rcases Nat.eq_zero_or_pos g.nz with h | h; · simp [h] at he
                           · exact h
  have hy : 0 < g.ny := by rcases Nat.eq_zero_or_pos g.ny with h | h; · simp [h] at he
                           · exact h
  simp only
  refine ⟨?_, ?_, Nat.mod_lt _ hz⟩
  · rw [Nat.div_lt_iff_lt_mul (Nat.mul_pos hy hz), ← mul_assoc]
    exact he
  · rw [Nat.div_lt_iff_lt_mul hz]
    exact Nat.mod_lt _ (Nat.mul_pos hy hz)

/-- In-bounds neighbours: the cell at the offset. -/
theorem neighbour_offsetTo (g : Grid) (e m : ℕ) (hm : m < g.numCells) :
    neighbourCell g e (offsetTo g e m) = (true, m) := by
  have h := cellIjk_lt g m hm
  unfold neighbourCell offsetTo
  simp only [add_sub_cancel]
  refine Prod.ext ?_ ?_
  · simp only [decide_eq_true_eq]
    omega
  · simp only
    have e1 : (max 0 (min (((g.cellIjk m).1 : ℤ)) ((g.nx : ℤ) - 1))).toNat = (g.cellIjk m).1 := by omega
    have e2 : (max 0 (min (((g.cellIjk m).2.1 : ℤ)) ((g.ny : ℤ) - 1))).toNat = (g.cellIjk m).2.1 := by omega
    have e3 : (max 0 (min (((g.cellIjk m).2.2 : ℤ)) ((g.nz : ℤ) - 1))).toNat = (g.cellIjk m).2.2 := by omega
    rw [e1, e2, e3]
    exact (cellId_cellIjk g m hm).1

/-- Every in-bounds offset leads to a cell. -/
theorem neighbour_inb (g : Grid) (e : ℕ) (d : ℤ × ℤ × ℤ) (h : (neighbourCell g e d).1 = true) :
    ∃ m < g.numCells, offsetTo g e m = d := by
  unfold neighbourCell at h
  simp only [decide_eq_true_eq] at h
  obtain ⟨h1, h2, h3, h4, h5, h6⟩ := h
  refine ⟨g.cellId ((((g.cellIjk e).1 : ℤ) + d.1).toNat, (((g.cellIjk e).2.1 : ℤ) + d.2.1).toNat,
    (((g.cellIjk e).2.2 : ℤ) + d.2.2).toNat), ?_, ?_⟩
  · exact cellId_lt g _ (by simp only; omega) (by simp only; omega) (by simp only; omega)
  · unfold offsetTo
    rw [cellIjk_cellId g _ (by simp only; omega) (by simp only; omega)]
    simp only
    refine Prod.ext ?_ (Prod.ext ?_ ?_) <;> simp only <;> omega

theorem offsetRange_nodup (m : ℕ) : (Grid.offsetRange m).Nodup := by
  unfold Grid.offsetRange
  apply List.Nodup.map _ List.nodup_range
  intro a b h
  simp only at h
  omega

omit [IsStrictOrderedRing K] in
theorem mem_sensOffsets (rmin : K) (d : ℤ × ℤ × ℤ) : d ∈ sensOffsets rmin ↔
    (|d.1| ≤ ⌈rmin⌉ - 1 ∧ |d.2.1| ≤ ⌈rmin⌉ - 1 ∧ |d.2.2| ≤ ⌈rmin⌉ - 1) := by
  unfold sensOffsets
  simp only
  split_ifs with h
  · simp only [List.flatMap_nil, List.not_mem_nil, false_iff]
    rintro ⟨h1, -, -⟩
    have := abs_nonneg d.1
    omega
  · simp only [List.mem_flatMap, List.mem_map, mem_offsetRange, abs_le]
    constructor
    · rintro ⟨a, ha, b, hb, c, hc, rfl⟩
      simp only
      omega
    · rintro ⟨h1, h2, h3⟩
      exact ⟨d.1, by omega, d.2.1, by omega, d.2.2, by omega, rfl⟩

omit [IsStrictOrderedRing K] in
theorem sensOffsets_nodup (rmin : K) : (sensOffsets rmin).Nodup := by
  unfold sensOffsets
  simp only
  split_ifs with h
  · simp
  · have hn := offsetRange_nodup (⌈rmin⌉ - 1).toNat
    rw [List.nodup_flatMap]
    refine ⟨?_, ?_⟩
    · intro a _
      rw [List.nodup_flatMap]
      refine ⟨?_, ?_⟩
      · intro b _
        apply List.Nodup.map _ hn
        intro c c' hc
        simpa using hc
      · refine hn.imp ?_
        intro b b' hbb x hx hx'
        simp only [List.mem_map] at hx hx'
        obtain ⟨c, _, rfl⟩ := hx
        obtain ⟨c', _, h'⟩ := hx'
        simp only [Prod.mk.injEq] at h'
        exact hbb h'.2.1.symm
    · refine hn.imp ?_
      intro a a' haa x hx hx'
      simp only [List.mem_flatMap, List.mem_map] at hx hx'
      obtain ⟨b, _, c, _, rfl⟩ := hx
      obtain ⟨b', _, c', _, h'⟩ := hx'
      simp only [Prod.mk.injEq] at h'
      exact haa h'.1.symm

/-- A cell with positive weight is reached by one of the offsets. -/
theorem cone_pos_offset (sqrt : ℕ → K) (hsq : ∀ k n : ℕ, k ^ 2 ≤ n → (k : K) ≤ sqrt n) (g : Grid) (rmin : K) (e m : ℕ)
    (h : 0 < coneOf sqrt g rmin e m) : offsetTo g e m ∈ sensOffsets rmin := by
  unfold coneOf at h
  have h1 : sqrt (cellDist2 g e m) < rmin := by
    rcases lt_max_iff.1 h with h | h
    · exact absurd h (lt_irrefl _)
    · linarith
  have key : ∀ k : ℕ, k ^ 2 ≤ cellDist2 g e m → (k : ℤ) ≤ ⌈rmin⌉ - 1 := by
    intro k hk
    have h2 : ((k : ℤ) : K) < rmin := by
      have := hsq k _ hk
      push_cast
      linarith
    have := Int.lt_ceil.2 h2
    omega
  rw [mem_sensOffsets]
  unfold offsetTo
  unfold cellDist2 at key
  simp only at key ⊢
  refine ⟨?_, ?_, ?_⟩
  · have := key ((((g.cellIjk e).1 : ℤ) - (g.cellIjk m).1).natAbs) (by omega)
    rw [abs_sub_comm, ← Int.natCast_natAbs]
    omega
  · have := key ((((g.cellIjk e).2.1 : ℤ) - (g.cellIjk m).2.1).natAbs) (by omega)
    rw [abs_sub_comm, ← Int.natCast_natAbs]
    omega
  · have := key ((((g.cellIjk e).2.2 : ℤ) - (g.cellIjk m).2.2).natAbs) (by omega)
    rw [abs_sub_comm, ← Int.natCast_natAbs]
    omega

theorem offsetTo_inj (g : Grid) (e m m' : ℕ) (hm : m < g.numCells) (hm' : m' < g.numCells)
    (h : offsetTo g e m = offsetTo g e m') : m = m' := by
  have h1 := neighbour_offsetTo g e m hm
  rw [h, neighbour_offsetTo g e m' hm'] at h1
  exact (Prod.ext_iff.1 h1).2.symm

/-- A sum over the offsets with positive weight is a sum over the cells of the grid. -/
theorem sum_offsets (sqrt : ℕ → K) (hsq : ∀ k n : ℕ, k ^ 2 ≤ n → (k : K) ≤ sqrt n) (g : Grid) (rmin : K) (e : ℕ)
    (f : ℤ × ℤ × ℤ → K) (val : ℕ → K) (hin : ∀ m < g.numCells, f (offsetTo g e m) = coneOf sqrt g rmin e m * val m)
    (hout : ∀ d, (neighbourCell g e d).1 = false → f d = 0) :
    (((sensOffsets rmin).filter fun d => decide (0 < coneWeight sqrt rmin d)).map f).sum
      = ∑ m ∈ Finset.range g.numCells, coneOf sqrt g rmin e m * val m := by
  set offs := (sensOffsets rmin).filter fun d => decide (0 < coneWeight sqrt rmin d) with ho
  have hnd : offs.Nodup := (sensOffsets_nodup rmin).filter _
  rw [← List.sum_toFinset f hnd]
  have hrestrict : ∑ m ∈ Finset.range g.numCells, coneOf sqrt g rmin e m * val m
      = ∑ m ∈ (Finset.range g.numCells).filter (fun m => 0 < coneOf sqrt g rmin e m), coneOf sqrt g rmin e m * val m := by
    symm
    apply Finset.sum_filter_of_ne
    intro m _ hne
    have h0 : (0 : K) ≤ coneOf sqrt g rmin e m := le_max_left _ _
    rcases h0.lt_or_eq with h | h
    · exact h
    · rw [← h, zero_mul] at hne
      exact absurd rfl hne
  rw [hrestrict]
  symm
  apply Finset.sum_of_injOn (offsetTo g e)
  · intro m hm m' hm' h
    simp only [Finset.coe_filter, Finset.mem_range, Set.mem_ofPred_eq] at hm hm'
    exact offsetTo_inj g e m m' hm.1 hm'.1 h
  · intro m hm
    simp only [Finset.coe_filter, Finset.mem_range, Set.mem_ofPred_eq] at hm
    simp only [List.coe_toFinset, Set.mem_ofPred_eq, ho, List.mem_filter, decide_eq_true_eq]
    exact ⟨cone_pos_offset sqrt hsq g rmin e m hm.2, by rw [coneWeight_offset]; exact hm.2⟩
  · intro d hd hnot
    cases hb : (neighbourCell g e d).1 with
    | false => exact hout d hb
    | true =>
      exfalso
      obtain ⟨m, hm, rfl⟩ := neighbour_inb g e d hb
      apply hnot
      refine ⟨m, ?_, rfl⟩
      simp only [Finset.coe_filter, Finset.mem_range, Set.mem_ofPred_eq]
      refine ⟨hm, ?_⟩
      rw [List.mem_toFinset, ho, List.mem_filter, decide_eq_true_eq, coneWeight_offset] at hd
      exact hd.2
  · intro m hm
    simp only [Finset.mem_filter, Finset.mem_range] at hm
    exact (hin m hm.1).symm

theorem getD_map_append (ac : List ℕ) (f : ℕ → K) (idx : ℕ) (hi : idx < ac.length) :
    ((ac.map f) ++ [0]).getD idx 0 = f (ac.getD idx 0) := by
  rw [List.getD_eq_getElem?_getD, List.getElem?_append_left (by simpa using hi), List.getElem?_map,
    List.getD_eq_getElem?_getD]
  rw [List.getElem?_eq_getElem hi]
  rfl

theorem getD_map_append_sink (ac : List ℕ) (f : ℕ → K) : ((ac.map f) ++ [0]).getD ac.length 0 = 0 := by
  rw [List.getD_eq_getElem?_getD, List.getElem?_append_right (by simp)]
  simp

theorem activePos_mem (ac : List ℕ) (hs : ac.Pairwise (· < ·)) (m : ℕ) (hm : m ∈ ac) :
    activePos ac (true, m) < ac.length ∧ ac.getD (activePos ac (true, m)) 0 = m := by
  have h := searchsorted_sorted hs hm
  have hlt : searchsorted ac m < ac.length := by
    by_contra hc
    rw [List.getElem?_eq_none (by omega)] at h
    cases h
  have hg : ac.getD (searchsorted ac m) 0 = m := by rw [List.getD_eq_getElem?_getD, h]; rfl
  unfold activePos
  simp only [true_and]
  rw [min_eq_left (by omega), if_pos hg]
  exact ⟨hlt, hg⟩

theorem activePos_not_mem (ac : List ℕ) (m : ℕ) (hm : m ∉ ac) (hne : ac ≠ []) : activePos ac (true, m) = ac.length := by
  unfold activePos
  simp only [true_and]
  rw [if_neg]
  intro h
  apply hm
  have hl := List.length_pos_of_ne_nil hne
  have hlt : min (searchsorted ac m) (ac.length - 1) < ac.length := by omega
  rw [List.getD_eq_getElem _ _ hlt] at h
  rw [← h]
  exact List.getElem_mem _

theorem activePos_out (ac : List ℕ) (m : ℕ) : activePos ac (false, m) = ac.length := by
  unfold activePos
  rw [if_neg]
  simp

/-- **C54.** For every grid, radius, sorted active set and fields, each active cell gets
`Σ_n w_en ρ_n dc_n / (H_e · max(1e-3, ρ_e) + 1e-30)`, the first sum over all active cells of the grid, `H_e` the sum of the weights of
all its cells, `w_en` the cone weight of the distance: no neighbour with positive weight is missed. `sqrt` is any function that is
not below the true root of a square. -/
theorem C54_sensitivity_filter (sqrt : ℕ → K) (hsq : ∀ k n : ℕ, k ^ 2 ≤ n → (k : K) ≤ sqrt n) (g : Grid) (rmin floor eps : K)
    (ac : List ℕ) (hs : ac.Pairwise (· < ·)) (hin : ∀ m ∈ ac, m < g.numCells) (rho dc : ℕ → K) :
    sensitivityFilter g sqrt rmin floor eps ac (ac.map rho) (ac.map dc) = ac.map fun e =>
      (∑ m ∈ Finset.range g.numCells, if m ∈ ac then coneOf sqrt g rmin e m * rho m * dc m else 0)
        / ((∑ m ∈ Finset.range g.numCells, coneOf sqrt g rmin e m) * max floor (rho e) + eps) := by
  unfold sensitivityFilter
  simp only
  rw [List.zipWith_map_right, List.zipWith_self]
  apply List.map_congr_left
  intro e he
  have hne : ac ≠ [] := List.ne_nil_of_mem he
  have h1 := sum_offsets sqrt hsq g rmin e
    (fun d => coneWeight sqrt rmin d * (ac.map rho ++ [0]).getD (activePos ac (neighbourCell g e d)) 0
      * (ac.map dc ++ [0]).getD (activePos ac (neighbourCell g e d)) 0)
    (fun m => if m ∈ ac then rho m * dc m else 0) ?_ ?_
  · have h2 := sum_offsets sqrt hsq g rmin e
      (fun d => if (neighbourCell g e d).1 = true then coneWeight sqrt rmin d else 0) (fun _ => 1) ?_ ?_
    · rw [h1, h2]
      congr 1
      · apply Finset.sum_congr rfl
        intro m _
        split_ifs <;> ring
      · congr 2
        apply Finset.sum_congr rfl
        intro m _
        ring
    · intro m hm
      rw [neighbour_offsetTo g e m hm, coneWeight_offset, if_pos rfl, mul_one]
    · intro d hd
      rw [hd]
      simp
  · intro m hm
    rw [neighbour_offsetTo g e m hm, coneWeight_offset]
    by_cases hmem : m ∈ ac
    · obtain ⟨hp, hq⟩ := activePos_mem ac hs m hmem
      rw [getD_map_append ac rho _ hp, getD_map_append ac dc _ hp, hq, if_pos hmem]
      ring
    · rw [activePos_not_mem ac m hmem hne, getD_map_append_sink, getD_map_append_sink, if_neg hmem]
      ring
  · intro d hd
    have : neighbourCell g e d = (false, (neighbourCell g e d).2) := Prod.ext hd rfl
    rw [this, activePos_out, getD_map_append_sink]
    ring

end

/-- An integer root rounded up meets the hypothesis on `sqrt`. -/
example : ∀ k n : ℕ, k ^ 2 ≤ n → (k : ℚ) ≤ ((Nat.sqrt n + 1 : ℕ) : ℚ) := by
  intro k n h
  have : k ≤ Nat.sqrt n := Nat.le_sqrt'.2 h
  exact_mod_cast Nat.le_succ_of_le this

/-- A band of two cells out of three in a row, radius 2 (weights 2 and 1). -/
example : sensitivityFilter ⟨3, 1, 1⟩ (fun n => if n = 0 then 0 else if n = 1 then 1 else (n : ℚ)) 2 (1 / 1000) 0 [0, 1] [1, 1 / 2]
    [-3, -4] = [-8 / 3, -7 / 2] := by
  decide +kernel

end Verif.Props
