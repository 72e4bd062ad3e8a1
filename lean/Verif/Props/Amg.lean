import Verif.Model.Amg
import Verif.Props.Balance
import Verif.Props.Periodic
import Mathlib.Tactic.IntervalCases
import Mathlib.Tactic.FieldSimp
import Mathlib.Tactic.FinCases
import Mathlib.Tactic.LinearCombination
import Mathlib.Data.List.GetD
import Mathlib.Data.Rat.Lemmas
import Mathlib.Algebra.Order.Ring.Rat

/-!
# C128: near-null space of the AMG preconditioner

Specification: node `n` has coordinates `position pts n`; a vector of unknowns moves component `c` of node `n` by its entry
`n * dim + c`; a rigid motion to first order is `x ↦ W x + b` with `W` skew.
-/

namespace Verif.Props

open Verif.Model

namespace Spec.Amg
variable {K : Type*} [Field K]

/-- Coordinate `l` of node `n`. -/
def position (pts : List (List K)) (n l : ℕ) : K := (pts.getD n []).getD l 0

/-- Skew matrices of size `dim`. -/
def Skew (dim : ℕ) (W : ℕ → ℕ → K) : Prop := ∀ c < dim, ∀ l < dim, W c l = - W l c

/-- The unknowns `u` move the nodes by an infinitesimal rotation and a translation. -/
def RigidMotion (dim : ℕ) (pts : List (List K)) (u : List K) : Prop :=
  ∃ W b, Skew dim W ∧ ∀ n < pts.length, ∀ c < dim,
    u.getD (n * dim + c) 0 = Verif.Spec.affine dim W b (position pts n) c

/-- First order change of half the squared distance of two nodes. -/
def stretch (dim : ℕ) (pts : List (List K)) (u : List K) (n m : ℕ) : K :=
  ∑ c ∈ Finset.range dim, (position pts n c - position pts m c) * (u.getD (n * dim + c) 0 - u.getD (m * dim + c) 0)

/-- The nodes are not all on one line of direction `e`, for every direction `e`. -/
def NotCollinear (dim : ℕ) (pts : List (List K)) : Prop :=
  ∀ e : ℕ → K, (∃ c < dim, e c ≠ 0) → ∃ n < pts.length, ∃ m < pts.length, ∃ k < dim, ∃ l < dim,
    (position pts n k - position pts m k) * e l ≠ (position pts n l - position pts m l) * e k

end Spec.Amg

open Spec.Amg

section modes
variable {K : Type} [Field K] [LinearOrder K] [IsStrictOrderedRing K]

omit [IsStrictOrderedRing K] in
theorem setStride_length (d s : ℕ) (v col : List K) : (setStride d s v col).length = col.length := by simp [setStride]

omit [IsStrictOrderedRing K] in
theorem setStride_getD (d s : ℕ) (v col : List K) {i : ℕ} (hi : i < col.length) :
    (setStride d s v col).getD i 0 = if i % d = s then v.getD (i / d) 0 else col.getD i 0 := by
  rw [List.getD_eq_getElem _ _ (by simpa [setStride] using hi), List.getD_eq_getElem _ _ hi]
  simp [setStride]

/-- Mean of a coordinate over the nodes. -/
def meanOf (pts : List (List K)) (j : ℕ) : K := (pts.map fun p => p.getD j 0).sum / (pts.length : K)

omit [IsStrictOrderedRing K] in
theorem centred_getD (pts : List (List K)) (j : ℕ) {n : ℕ} (hn : n < pts.length) :
    (centred pts j).getD n 0 = position pts n j - meanOf pts j := by
  rw [List.getD_eq_getElem _ _ (by simpa [centred] using hn)]
  simp only [position, List.getD_eq_getElem _ _ hn]
  simp [centred, meanOf]

omit [IsStrictOrderedRing K] in
theorem map_neg_getD (l : List K) (n : ℕ) : (l.map (- ·)).getD n 0 = - l.getD n 0 := by
  by_cases h : n < l.length
  · rw [List.getD_eq_getElem _ _ (by simpa using h), List.getD_eq_getElem _ _ h]; simp
  · rw [List.getD_eq_default _ _ (by simpa using h), List.getD_eq_default _ _ (by simpa using h)]; simp

theorem replicate_one_getD (N n : ℕ) (h : n < N) : (List.replicate N (1 : K)).getD n 0 = 1 := by
  rw [List.getD_eq_getElem _ _ (by simpa using h)]; simp

/-- Component `c` of column `k` at a node whose centred coordinates are `y`. -/
def modeAt (dim k : ℕ) (y : ℕ → K) (c : ℕ) : K :=
  if k < dim then (if c = k then 1 else 0)
  else if dim = 2 then (if c = 0 then - y 1 else y 0)
  else if k = 3 then (if c = 0 then 0 else if c = 1 then - y 2 else y 1)
  else if k = 4 then (if c = 0 then y 2 else if c = 1 then 0 else - y 0)
  else (if c = 0 then - y 1 else if c = 1 then y 0 else 0)

theorem modeColumns_entry {dim : ℕ} {pts : List (List K)} {cols : List (List K)} (h : modeColumns dim pts = some cols) :
    (dim = 2 ∨ dim = 3) ∧ cols.length = dim * (dim + 1) / 2 ∧
    (∀ col ∈ cols, col.length = pts.length * dim) ∧
    ∀ k < cols.length, ∀ n < pts.length, ∀ c < dim,
      (cols.getD k []).getD (n * dim + c) 0 = modeAt dim k (fun j => position pts n j - meanOf pts j) c := by
  unfold modeColumns at h
  simp only at h
  split at h
  · rename_i h3
    subst h3
    simp only [Option.some.injEq] at h
    refine ⟨Or.inr rfl, by rw [← h]; rfl, ?_, ?_⟩
    · intro col hc
      rw [← h] at hc
      simp only [List.mem_cons, List.not_mem_nil, or_false] at hc
      rcases hc with rfl | rfl | rfl | rfl | rfl | rfl <;> simp [setStride_length]
    · intro k hk n hn c hc
      have hi : n * 3 + c < pts.length * 3 := by omega
      have hl : k < 6 := by rw [← h] at hk; simpa using hk
      have hmod : (n * 3 + c) % 3 = c := by omega
      have hdiv : (n * 3 + c) / 3 = n := by omega
      have hz : (List.replicate (pts.length * 3) (0 : K)).getD (n * 3 + c) 0 = 0 := by
        rw [List.getD_eq_getElem _ _ (by simpa using hi)]; simp
      rw [← h]
      interval_cases k <;>
      simp only [List.getD_cons_zero, List.getD_cons_succ] <;>
      (repeat rw [setStride_getD _ _ _ _ (by simp only [setStride_length, List.length_replicate]; exact hi)]) <;>
      simp only [hmod, hdiv, hz, map_neg_getD, centred_getD _ _ hn, replicate_one_getD _ _ hn, modeAt] <;>
      interval_cases c <;> simp
  · split at h
    · rename_i h2
      subst h2
      simp only [Option.some.injEq] at h
      refine ⟨Or.inl rfl, by rw [← h]; rfl, ?_, ?_⟩
      · intro col hc
        rw [← h] at hc
        simp only [List.mem_cons, List.not_mem_nil, or_false] at hc
        rcases hc with rfl | rfl | rfl <;> simp [setStride_length]
      · intro k hk n hn c hc
        have hi : n * 2 + c < pts.length * 2 := by omega
        have hl : k < 3 := by rw [← h] at hk; simpa using hk
        have hmod : (n * 2 + c) % 2 = c := by omega
        have hdiv : (n * 2 + c) / 2 = n := by omega
        have hz : (List.replicate (pts.length * 2) (0 : K)).getD (n * 2 + c) 0 = 0 := by
          rw [List.getD_eq_getElem _ _ (by simpa using hi)]; simp
        rw [← h]
        interval_cases k <;>
        simp only [List.getD_cons_zero, List.getD_cons_succ] <;>
        (repeat rw [setStride_getD _ _ _ _ (by simp only [setStride_length, List.length_replicate]; exact hi)]) <;>
        simp only [hmod, hdiv, hz, map_neg_getD, centred_getD _ _ hn, replicate_one_getD _ _ hn, modeAt] <;>
        interval_cases c <;> simp
    · simp at h

omit [IsStrictOrderedRing K] in
theorem zeroRows_getD (rows : List ℕ) (col : List K) (i : ℕ) :
    (zeroRows rows col).getD i 0 = if i ∈ rows then 0 else col.getD i 0 := by
  by_cases h : i < col.length
  · rw [List.getD_eq_getElem _ _ (by simpa [zeroRows] using h), List.getD_eq_getElem _ _ h]
    simp [zeroRows]
  · rw [List.getD_eq_default _ _ (by simpa [zeroRows] using h), List.getD_eq_default _ _ (by simpa using h)]; simp

omit [IsStrictOrderedRing K] in
theorem zeroRows_nil (col : List K) : zeroRows [] col = col := by
  apply List.ext_getElem <;> simp [zeroRows]

omit [IsStrictOrderedRing K] in
theorem rigidBodyModes_eq {vec : List ℕ} {dim : ℕ} {pts : List (List K)} {bc : Option (List ℕ)} {B : Modes K}
    (h : rigidBodyModes vec dim pts bc = some B) :
    vec = [dim] ∧ ∃ cols, modeColumns dim pts = some cols ∧ B = ⟨pts.length * dim, cols.map (zeroRows (bc.getD []))⟩ := by
  unfold rigidBodyModes at h
  split at h
  · rename_i nv
    split at h
    · simp at h
    · rename_i hne
      have : nv = dim := by simpa using hne
      subst this
      cases hm : modeColumns nv pts with
      | none => rw [hm] at h; simp at h
      | some cols => rw [hm] at h; exact ⟨rfl, cols, rfl, by simpa using h.symm⟩
  · simp at h

/-- **C128, shape and availability.** Modes exist exactly for a single field with as many components as space dimensions, in two or
three dimensions; there are `dim (dim + 1) / 2` of them (as many as the adaptive search looks for by default), each with
one entry per unknown. -/
theorem C128_modes_shape (vec : List ℕ) (dim : ℕ) (pts : List (List K)) (bc : Option (List ℕ)) :
    ((rigidBodyModes vec dim pts bc).isSome ↔ vec = [dim] ∧ (dim = 2 ∨ dim = 3)) ∧
    ∀ B, rigidBodyModes vec dim pts bc = some B →
      B.rows = pts.length * dim ∧ B.cols.length = dim * (dim + 1) / 2 ∧ defaultNumCandidates vec dim = B.cols.length ∧
      ∀ col ∈ B.cols, col.length = B.rows := by
  refine ⟨⟨fun h => ?_, ?_⟩, ?_⟩
  · obtain ⟨B, hB⟩ := Option.isSome_iff_exists.mp h
    obtain ⟨hv, cols, hc, -⟩ := rigidBodyModes_eq hB
    exact ⟨hv, (modeColumns_entry hc).1⟩
  · rintro ⟨rfl, rfl | rfl⟩ <;> simp [rigidBodyModes, modeColumns]
  · intro B hB
    obtain ⟨hv, cols, hc, rfl⟩ := rigidBodyModes_eq hB
    obtain ⟨-, hl, hlen, -⟩ := modeColumns_entry hc
    refine ⟨rfl, by simpa using hl, by simp [hv, defaultNumCandidates, hl], ?_⟩
    intro col hcol
    obtain ⟨c, hcm, rfl⟩ := List.mem_map.mp hcol
    simp [zeroRows, hlen c hcm]

/-- **C128, constrained unknowns.** With a boundary condition the modes vanish at the constrained unknowns and are otherwise those
without. -/
theorem C128_constrained_rows (vec : List ℕ) (dim : ℕ) (pts : List (List K)) (rows : List ℕ) {B : Modes K}
    (h : rigidBodyModes vec dim pts (some rows) = some B) :
    ∃ B0, rigidBodyModes vec dim pts none = some B0 ∧ B.cols.length = B0.cols.length ∧
      ∀ k i, (B.cols.getD k []).getD i 0 = if i ∈ rows then 0 else (B0.cols.getD k []).getD i 0 := by
  obtain ⟨rfl, cols, hc, rfl⟩ := rigidBodyModes_eq h
  refine ⟨⟨pts.length * dim, cols⟩, ?_, by simp, ?_⟩
  · have : zeroRows (K := K) [] = id := by funext c; exact zeroRows_nil c
    simp [rigidBodyModes, hc, this]
  · intro k i
    by_cases hk : k < cols.length
    · rw [List.getD_eq_getElem (List.map _ _) [] (by simpa using hk), List.getD_eq_getElem cols [] hk]
      simp only [Option.getD_some, List.getElem_map]
      exact zeroRows_getD _ _ _
    · rw [List.getD_eq_default (List.map _ _) [] (by simpa using hk), List.getD_eq_default cols [] (by simpa using hk)]; simp

omit [LinearOrder K] [IsStrictOrderedRing K] in
/-- Skew matrix of a rotation. -/
def rotation (a b c : K) : ℕ → ℕ → K
  | 0, 1 => -c | 1, 0 => c | 0, 2 => b | 2, 0 => -b | 1, 2 => -a | 2, 1 => a | _, _ => 0

theorem free_columns {vec : List ℕ} {dim : ℕ} {pts : List (List K)} {B : Modes K}
    (h : rigidBodyModes vec dim pts none = some B) : modeColumns dim pts = some B.cols := by
  obtain ⟨-, cols, hc, rfl⟩ := rigidBodyModes_eq h
  have : zeroRows (K := K) [] = id := by funext c; exact zeroRows_nil c
  simp [hc, this]

/-- **C128, rigid motions.** Without boundary condition every column moves the nodes by a rigid motion, and so changes no distance
to first order. -/
theorem C128_modes_rigid (vec : List ℕ) (dim : ℕ) (pts : List (List K)) {B : Modes K}
    (h : rigidBodyModes vec dim pts none = some B) (col : List K) (hcol : col ∈ B.cols) :
    RigidMotion dim pts col ∧ ∀ n < pts.length, ∀ m < pts.length, stretch dim pts col n m = 0 := by
  have hc := free_columns h
  obtain ⟨hd, hl, -, he⟩ := modeColumns_entry hc
  obtain ⟨k, hk, rfl⟩ := List.mem_iff_getElem.mp hcol
  have hg : B.cols[k] = B.cols.getD k [] := (List.getD_eq_getElem _ _ hk).symm
  rw [hg]
  have he := he k hk
  have hk' : k < dim * (dim + 1) / 2 := hl ▸ hk
  constructor
  · rcases hd with rfl | rfl
    · have hk3 : k < 3 := by simpa using hk'
      refine ⟨rotation 0 0 (if k = 2 then 1 else 0), fun c => (if c = k then 1 else 0) -
        ∑ l ∈ Finset.range 2, rotation 0 0 (if k = 2 then 1 else 0) c l * meanOf pts l, ?_, ?_⟩
      · intro c hc l hl
        interval_cases c <;> interval_cases l <;> simp [rotation]
      · intro n hn c hc
        rw [he n hn c hc]
        interval_cases k <;> interval_cases c <;>
          simp [modeAt, Verif.Spec.affine, Finset.sum_range_succ, rotation] <;> (try ring)
    · have hk3 : k < 6 := by simpa using hk'
      refine ⟨rotation (if k = 3 then 1 else 0) (if k = 4 then 1 else 0) (if k = 5 then 1 else 0), fun c => (if c = k then 1 else 0) -
        ∑ l ∈ Finset.range 3, rotation (if k = 3 then 1 else 0) (if k = 4 then 1 else 0) (if k = 5 then 1 else 0) c l * meanOf pts l,
        ?_, ?_⟩
      · intro c hc l hl
        interval_cases c <;> interval_cases l <;> simp [rotation]
      · intro n hn c hc
        rw [he n hn c hc]
        interval_cases k <;> interval_cases c <;>
          simp [modeAt, Verif.Spec.affine, Finset.sum_range_succ, rotation] <;> (try ring)
  · intro n hn m hm
    unfold stretch
    rcases hd with rfl | rfl
    · have hk3 : k < 3 := by simpa using hk'
      simp only [Finset.sum_range_succ, Finset.sum_range_zero, he n hn 0 (by omega), he n hn 1 (by omega), he m hm 0 (by omega),
        he m hm 1 (by omega)]
      interval_cases k <;> simp [modeAt] <;> (try ring)
    · have hk3 : k < 6 := by simpa using hk'
      simp only [Finset.sum_range_succ, Finset.sum_range_zero, he n hn 0 (by omega), he n hn 1 (by omega), he n hn 2 (by omega),
        he m hm 0 (by omega), he m hm 1 (by omega), he m hm 2 (by omega)]
      interval_cases k <;> simp [modeAt] <;> (try ring)

/-- **C128, completeness.** Every rigid motion is a combination of the columns. -/
theorem C128_modes_span (vec : List ℕ) (dim : ℕ) (pts : List (List K)) {B : Modes K}
    (h : rigidBodyModes vec dim pts none = some B) (u : List K) (hu : RigidMotion dim pts u) :
    ∃ a : ℕ → K, ∀ i < pts.length * dim, u.getD i 0 = ∑ k ∈ Finset.range B.cols.length, a k * (B.cols.getD k []).getD i 0 := by
  have hc := free_columns h
  obtain ⟨hd, hl, -, he⟩ := modeColumns_entry hc
  obtain ⟨W, b, hW, hu⟩ := hu
  have key : ∃ a : ℕ → K, ∀ n < pts.length, ∀ c < dim,
      u.getD (n * dim + c) 0 = ∑ k ∈ Finset.range B.cols.length, a k * (B.cols.getD k []).getD (n * dim + c) 0 := by
    rcases hd with rfl | rfl
    · have h00 : W 0 0 = 0 := by have := hW 0 (by omega) 0 (by omega); linarith
      have h11 : W 1 1 = 0 := by have := hW 1 (by omega) 1 (by omega); linarith
      have h01 : W 0 1 = - W 1 0 := hW 0 (by omega) 1 (by omega)
      refine ⟨fun k => if k < 2 then b k + ∑ l ∈ Finset.range 2, W k l * meanOf pts l else W 1 0, ?_⟩
      intro n hn c hc
      rw [hu n hn c hc, Finset.sum_congr rfl (fun k hk => by rw [he k (by simpa using hk) n hn c hc]), hl]
      interval_cases c <;>
        simp [modeAt, Verif.Spec.affine, Finset.sum_range_succ, h00, h11, h01] <;> (try ring)
    · have h00 : W 0 0 = 0 := by have := hW 0 (by omega) 0 (by omega); linarith
      have h11 : W 1 1 = 0 := by have := hW 1 (by omega) 1 (by omega); linarith
      have h22 : W 2 2 = 0 := by have := hW 2 (by omega) 2 (by omega); linarith
      have h01 : W 0 1 = - W 1 0 := hW 0 (by omega) 1 (by omega)
      have h20 : W 2 0 = - W 0 2 := hW 2 (by omega) 0 (by omega)
      have h12 : W 1 2 = - W 2 1 := hW 1 (by omega) 2 (by omega)
      refine ⟨fun k => if k < 3 then b k + ∑ l ∈ Finset.range 3, W k l * meanOf pts l else
        if k = 3 then W 2 1 else if k = 4 then W 0 2 else W 1 0, ?_⟩
      intro n hn c hc
      rw [hu n hn c hc, Finset.sum_congr rfl (fun k hk => by rw [he k (by simpa using hk) n hn c hc]), hl]
      interval_cases c <;>
        simp [modeAt, Verif.Spec.affine, Finset.sum_range_succ, h00, h11, h22, h01, h20, h12] <;> (try ring)
  obtain ⟨a, ha⟩ := key
  refine ⟨a, fun i hi => ?_⟩
  have hdp : 0 < dim := by rcases hd with rfl | rfl <;> omega
  have := ha (i / dim) (Nat.div_lt_of_lt_mul (by rwa [Nat.mul_comm] at hi)) (i % dim) (Nat.mod_lt _ hdp)
  rwa [Nat.div_add_mod'] at this

end modes

section modes2
variable {K : Type} [Field K] [LinearOrder K] [IsStrictOrderedRing K]

/-- **C128, independence.** If two nodes differ (in two dimensions) or the nodes do not lie on a line (in three), no combination of
the columns vanishes except the trivial one. -/
theorem C128_modes_independent (vec : List ℕ) (dim : ℕ) (pts : List (List K)) {B : Modes K}
    (h : rigidBodyModes vec dim pts none = some B)
    (h2 : dim = 2 → ∃ n < pts.length, ∃ m < pts.length, ∃ c < 2, position pts n c ≠ position pts m c)
    (h3 : dim = 3 → NotCollinear 3 pts) (a : ℕ → K)
    (ha : ∀ i < pts.length * dim, ∑ k ∈ Finset.range B.cols.length, a k * (B.cols.getD k []).getD i 0 = 0) :
    ∀ k < B.cols.length, a k = 0 := by
  have hc := free_columns h
  obtain ⟨hd, hl, -, he⟩ := modeColumns_entry hc
  have key : ∀ n < pts.length, ∀ c < dim,
      ∑ k ∈ Finset.range (dim * (dim + 1) / 2), a k * modeAt dim k (fun j => position pts n j - meanOf pts j) c = 0 := by
    intro n hn c hc
    have := ha (n * dim + c) (by nlinarith)
    rw [Finset.sum_congr rfl (fun k hk => by rw [he k (by simpa using hk) n hn c hc]), hl] at this
    exact this
  rw [hl]
  rcases hd with rfl | rfl
  · obtain ⟨n, hn, m, hm, c, hc2, hne⟩ := h2 rfl
    have e0 := key n hn 0 (by omega)
    have e1 := key n hn 1 (by omega)
    have f0 := key m hm 0 (by omega)
    have f1 := key m hm 1 (by omega)
    simp [modeAt, Finset.sum_range_succ] at e0 e1 f0 f1
    have a2 : a 2 = 0 := by
      by_contra hz
      interval_cases c
      · exact hne (mul_left_cancel₀ hz (by linear_combination e1 - f1))
      · exact hne (mul_left_cancel₀ hz (by linear_combination f0 - e0))
    rw [a2] at e0 e1
    intro k hk
    have : k < 3 := by simpa using hk
    interval_cases k
    · simpa using e0
    · simpa using e1
    · exact a2
  · have hrot : ∀ c < 3, a (3 + c) = 0 := by
      by_contra hz
      push Not at hz
      obtain ⟨n, hn, m, hm, k, hk, l, hl', hne⟩ := h3 rfl (fun c => a (3 + c)) hz
      have e0 := key n hn 0 (by omega)
      have e1 := key n hn 1 (by omega)
      have e2 := key n hn 2 (by omega)
      have f0 := key m hm 0 (by omega)
      have f1 := key m hm 1 (by omega)
      have f2 := key m hm 2 (by omega)
      simp [modeAt, Finset.sum_range_succ] at e0 e1 e2 f0 f1 f2
      apply hne
      interval_cases k <;> interval_cases l <;> simp only [Nat.add_zero, Nat.reduceAdd]
      all_goals first
        | linear_combination e0 - f0 | linear_combination f0 - e0 | linear_combination e1 - f1
        | linear_combination f1 - e1 | linear_combination e2 - f2 | linear_combination f2 - e2
    have h3' := hrot 0 (by omega)
    have h4' := hrot 1 (by omega)
    have h5' := hrot 2 (by omega)
    simp only [Nat.add_zero, Nat.reduceAdd] at h3' h4' h5'
    obtain ⟨n, hn, -⟩ := h3 rfl (fun _ => 1) ⟨0, by omega, one_ne_zero⟩
    have e0 := key n hn 0 (by omega)
    have e1 := key n hn 1 (by omega)
    have e2 := key n hn 2 (by omega)
    simp [modeAt, Finset.sum_range_succ, h3', h4', h5'] at e0 e1 e2
    intro k hk
    have : k < 6 := by simpa using hk
    interval_cases k <;> assumption

theorem sum_centred (pts : List (List K)) (j : ℕ) :
    ∑ n ∈ Finset.range pts.length, (position pts n j - meanOf pts j) = 0 := by
  rw [Finset.sum_sub_distrib, Finset.sum_const, Finset.card_range, nsmul_eq_mul, meanOf]
  have : ∑ n ∈ Finset.range pts.length, position pts n j = (pts.map fun p => p.getD j 0).sum := by
    unfold position
    induction pts using List.reverseRecOn with
    | nil => simp
    | append_singleton l x ih =>
      rw [List.length_append, List.length_singleton, Finset.sum_range_succ, List.map_append, List.sum_append]
      congr 1
      · rw [← ih]
        refine Finset.sum_congr rfl fun n hn => ?_
        rw [List.getD_append _ _ _ _ (by simpa using hn)]
      · rw [List.getD_append_right _ _ _ _ (le_refl _)]; simp
  rw [this]
  by_cases h : (pts.length : K) = 0
  · have h' : pts = [] := by
      have : pts.length = 0 := by exact_mod_cast h
      exact List.length_eq_zero_iff.mp this
    simp [h']
  · field_simp
    simp

/-- **C128, centring.** The rotations move no component on average: they are orthogonal to the translations. -/
theorem C128_rotations_centred (vec : List ℕ) (dim : ℕ) (pts : List (List K)) {B : Modes K}
    (h : rigidBodyModes vec dim pts none = some B) (k : ℕ) (hk : dim ≤ k) (hkl : k < B.cols.length) (c : ℕ) (hc : c < dim) :
    ∑ n ∈ Finset.range pts.length, (B.cols.getD k []).getD (n * dim + c) 0 = 0 := by
  have hcol := free_columns h
  obtain ⟨hd, hl, -, he⟩ := modeColumns_entry hcol
  rw [Finset.sum_congr rfl fun n hn => he k hkl n (by simpa using hn) c hc]
  rcases hd with rfl | rfl
  · have : k < 3 := by rw [hl] at hkl; simpa using hkl
    obtain rfl : k = 2 := by omega
    have n0 := sum_centred pts 0
    have n1 := sum_centred pts 1
    rw [Finset.sum_sub_distrib, Finset.sum_const, Finset.card_range, nsmul_eq_mul] at n0 n1
    interval_cases c <;> simp [modeAt]
    · linear_combination - n1
    · linear_combination n0
  · have : k < 6 := by rw [hl] at hkl; simpa using hkl
    have n0 := sum_centred pts 0
    have n1 := sum_centred pts 1
    have n2 := sum_centred pts 2
    rw [Finset.sum_sub_distrib, Finset.sum_const, Finset.card_range, nsmul_eq_mul] at n0 n1 n2
    interval_cases k <;> interval_cases c <;> simp [modeAt] <;>
      linarith

/-- **C128, zero energy.** In a problem given by a stress that vanishes for skew gradients, on elements that differentiate positions
exactly (C83: every mesh of Lagrange elements), the residual of every mode is zero: the modes are in the kernel of the
unconstrained operator. -/
theorem C128_modes_have_no_residual (d : Discretization K (List (QPoint K)) (List (QPoint K))) (hd : DiscOK d) (v : Var)
    (hv : d.p.vars = [v]) (dim : ℕ) (pts : List (List K)) (hn : v.numNodes = pts.length)
    (tensor : List (List K) → List K → List (List K)) (hk : FormKernels d dim (formOf none (some tensor)) (fun _ _ _ _ => []))
    (hX : MeshConsistent d dim 0 (position pts))
    (hs : ∀ W iv, Skew dim W → ∀ c < dim, ∀ l < dim,
      ((tensor ((List.range dim).map fun a => (List.range dim).map fun b => W a b) iv).getD c []).getD l 0 = 0)
    {B : Modes K} (h : rigidBodyModes [v.vec] dim pts none = some B) (col : List K) (hcol : col ∈ B.cols) :
    ∀ i < d.p.n, (d.residualAt col).getD i 0 = 0 := by
  obtain ⟨⟨W, b, hW, hu⟩, -⟩ := C128_modes_rigid _ _ _ h col hcol
  obtain ⟨hvec, -⟩ := rigidBodyModes_eq h
  simp only [List.cons.injEq, and_true] at hvec
  intro i hi
  rw [← inner_single d.p.n i hi, C82_residual_is_the_weak_form d hd dim _ _ hk, totalWork_eq]
  rw [overFaces_zero, add_zero]
  swap
  · intro s nodes q; simp [Verif.Spec.surfaceWork]
  rw [overCells_congr d _ (fun _ _ => 0)]
  · exact overCells_zero d _ fun _ _ => rfl
  intro cell hc q hq
  have hgrad : Verif.Spec.gradsAt (fields d.p.vars) (cellNodes d.p cell.2) dim col q
      = [(List.range dim).map fun a => (List.range dim).map fun b => W a b] := by
    unfold Verif.Spec.gradsAt
    rw [fields_length, hv]
    simp only [List.length_singleton, List.range_one, List.map_cons, List.map_nil]
    congr 1
    have hv0 : ((fields [v]).getD 0 ⟨0, 0⟩).vec = dim := by simpa [fields, Var.field] using hvec
    rw [hv0]
    refine List.map_congr_left fun a ha => List.map_congr_left fun l hl => ?_
    rw [List.mem_range] at ha hl
    have hg := affine_grad dim (position pts) _ _ (hX.cellGrad cell hc q hq) W b a l hl
    rw [← hg]
    unfold Verif.Spec.fieldGrad
    refine Finset.sum_congr rfl fun x hx => ?_
    congr 1
    have hlt := cellNode_lt d.p hd.wf cell.2 0 (by rw [hv]; simp) x (by simpa using hx)
    rw [hv] at hlt
    have hlt' : ((cellNodes d.p cell.2).getD 0 []).getD x 0 < pts.length := by rw [← hn]; simpa using hlt
    have := hu _ hlt' a ha
    rw [← this]
    simp [Verif.Spec.dofNumber, fields, Var.field, hvec]
  have hz : ∀ c < dim, ∀ l < dim,
      (((formOf none (some tensor) (Verif.Spec.valuesAt (fields d.p.vars) (cellNodes d.p cell.2) col q)
        (Verif.Spec.gradsAt (fields d.p.vars) (cellNodes d.p cell.2) dim col q) q.x q.iv).2.getD 0 []).getD c []).getD l 0 = 0 := by
    intro c hc' l hl'
    rw [hgrad]
    simpa [formOf] using hs W q.iv hW c hc' l hl'
  unfold Verif.Spec.volumeWork
  simp only [fields_length, fields_vec', hv, List.length_singleton, Finset.range_one, Finset.sum_singleton, List.getD_cons_zero]
  rw [hv] at hz
  have hm : ∀ vals grads x iv c, (((formOf none (some tensor) vals grads x iv).1.getD 0 []).getD c (0 : K)) = 0 := by
    intro vals grads x iv c; simp [formOf]
  rw [Finset.sum_eq_zero (fun c _ => by rw [hm, zero_mul]), zero_add,
    Finset.sum_eq_zero (fun c hc' => Finset.sum_eq_zero fun l hl' => by
      rw [hz c (by simpa [hvec] using hc') l (by simpa using hl'), zero_mul]), zero_mul]

end modes2

/-! ## Presets, refusals and the reduced path -/

section resolve
variable {K : Type} [Field K] [LinearOrder K]

/-- **C128, presets.** What the hierarchy is built from: by default the rigid body modes where they exist and the constant otherwise;
the presets in any letter case; an array as given; a search for the requested number of vectors. An explicit request for
rigid body modes that do not exist, and an unknown preset, are refused. -/
theorem C128_presets (num : Option ℕ) (vec : List ℕ) (dim : ℕ) (pts : List (List K)) (bc : Option (List ℕ)) :
    amgCandidates .default num vec dim pts bc = .ok (.given (rigidBodyModes vec dim pts bc)) ∧
    (∀ B, amgCandidates (.array B) num vec dim pts bc = .ok (.given (some B))) ∧
    ∀ s : String,
      (s.toLower = "rigid_body" → vec = [dim] → (dim = 2 ∨ dim = 3) →
        amgCandidates (.preset s) num vec dim pts bc = .ok (.given (rigidBodyModes vec dim pts bc))) ∧
      (s.toLower = "rigid_body" → ¬ (vec = [dim] ∧ (dim = 2 ∨ dim = 3)) →
        amgCandidates (.preset s) num vec dim pts bc = .error .valueError) ∧
      (s.toLower = "constant" → amgCandidates (.preset s) num vec dim pts bc = .ok (.given none)) ∧
      (s.toLower = "adaptive_sa" → amgCandidates (.preset s) num vec dim pts bc =
        .ok (.search (if 0 < num.getD 0 then num.getD 0 else if vec = [dim] then dim * (dim + 1) / 2 else 1))) ∧
      (s.toLower ∉ ["rigid_body", "constant", "adaptive_sa"] →
        amgCandidates (.preset s) num vec dim pts bc = .error .valueError) := by
  have hiff : (rigidBodyModes vec dim pts bc).isSome ↔ vec = [dim] ∧ (dim = 2 ∨ dim = 3) := by
    constructor
    · intro h
      obtain ⟨B, hB⟩ := Option.isSome_iff_exists.mp h
      obtain ⟨hv, cols, hc, -⟩ := rigidBodyModes_eq hB
      refine ⟨hv, ?_⟩
      by_contra hno
      push Not at hno
      simp [modeColumns, hno] at hc
    · rintro ⟨rfl, rfl | rfl⟩ <;> simp [rigidBodyModes, modeColumns]
  refine ⟨rfl, fun B => rfl, fun s => ⟨?_, ?_, ?_, ?_, ?_⟩⟩
  · intro hs hv hd
    obtain ⟨B, hB⟩ := Option.isSome_iff_exists.mp (hiff.mpr ⟨hv, hd⟩)
    simp [amgCandidates, resolveNearNullspace, hs, hB, Except.map]
  · intro hs hno
    have : rigidBodyModes vec dim pts bc = none := by
      rw [← Option.not_isSome_iff_eq_none]; exact fun h => hno (hiff.mp h)
    simp [amgCandidates, resolveNearNullspace, hs, this, Except.map]
  · intro hs
    simp [amgCandidates, resolveNearNullspace, hs, Except.map]
  · intro hs
    have hdef : defaultNumCandidates vec dim = if vec = [dim] then dim * (dim + 1) / 2 else 1 := by
      unfold defaultNumCandidates
      split
      · simp
      · rename_i h
        rw [if_neg]
        rintro rfl
        exact h _ rfl
    simp only [amgCandidates, resolveNearNullspace, hs, Except.map, hdef]
    match num with
    | none => simp
    | some 0 => simp
    | some (k + 1) => simp
  · intro hs
    simp only [List.mem_cons, List.not_mem_nil, or_false, not_or] at hs
    simp [amgCandidates, resolveNearNullspace, hs, Except.map]

end resolve

section projection
variable {K : Type} [Field K] [LinearOrder K] [IsStrictOrderedRing K]

/-- **C128, projection.** For a prolongation that copies each reduced unknown to a class of unknowns, the projected mode is the mean
of the mode over the class. -/
theorem C128_projection_is_class_mean (tiny : K) (ht : tiny ≤ 1) (P : Coo K) {N M : ℕ} {col : ℕ → ℕ} (h : Copies P N M col)
    (B : Modes K) (k : ℕ) (hk : k < B.cols.length) (c : ℕ) (hc : ∃ i < N, col i = c) :
    (projectReduced tiny P B).rows = M ∧ (projectReduced tiny P B).cols.length = B.cols.length ∧
    ((projectReduced tiny P B).cols.getD k []).length = M ∧
    ((projectReduced tiny P B).cols.getD k []).getD c 0 * (((Finset.range N).filter (fun i => col i = c)).card : K)
      = ∑ i ∈ (Finset.range N).filter (fun i => col i = c), (B.cols.getD k []).getD i 0 := by
  obtain ⟨i, hi, rfl⟩ := hc
  have hcM := h.lt i hi
  have hlen : ((projectReduced tiny P B).cols.getD k []).length = M := by
    rw [List.getD_eq_getElem _ _ (by simpa [projectReduced] using hk)]
    simp [projectReduced, h.rmatvec_length]
  refine ⟨h.cols, by simp [projectReduced], hlen, ?_⟩
  have hw : (P.rmatvec (List.replicate P.rows 1)).getD (col i) 0 =
      (((Finset.range N).filter (fun j => col j = col i)).card : K) := by
    rw [h.rmatvec_getD _ _ hcM, Finset.card_eq_sum_ones, Nat.cast_sum, Finset.sum_filter]
    refine Finset.sum_congr rfl fun j hj => ?_
    rw [h.rows, replicate_one_getD _ _ (by simpa using hj)]
    simp
  have hpos : (1 : K) ≤ (((Finset.range N).filter (fun j => col j = col i)).card : K) := by
    have : 0 < ((Finset.range N).filter (fun j => col j = col i)).card :=
      Finset.card_pos.mpr ⟨i, by simpa using hi⟩
    exact_mod_cast this
  have hval : ((projectReduced tiny P B).cols.getD k []).getD (col i) 0 =
      (P.rmatvec (B.cols.getD k [])).getD (col i) 0 / max ((P.rmatvec (List.replicate P.rows 1)).getD (col i) 0) tiny := by
    rw [List.getD_eq_getElem (projectReduced tiny P B).cols [] (by simpa [projectReduced] using hk),
      List.getD_eq_getElem B.cols [] hk]
    have l1 : col i < (P.rmatvec (B.cols[k])).length := by rw [h.rmatvec_length]; exact hcM
    have l2 : col i < (P.rmatvec (List.replicate P.rows 1)).length := by rw [h.rmatvec_length]; exact hcM
    rw [List.getD_eq_getElem _ _ l1, List.getD_eq_getElem _ _ l2,
      List.getD_eq_getElem _ _ (by simpa [projectReduced, h.rmatvec_length] using hcM)]
    simp [projectReduced]
  rw [hval, hw, max_eq_left (ht.trans hpos), h.rmatvec_getD _ _ hcM, Finset.sum_filter]
  have hne : (((Finset.range N).filter (fun j => col j = col i)).card : K) ≠ 0 := by
    intro h0; rw [h0] at hpos; exact absurd hpos (by simp)
  rw [div_mul_cancel₀ _ hne]

/-- **C128, exact projection.** A mode that is the same on every class is reproduced by the prolongation of its projection. -/
theorem C128_projection_exact (tiny : K) (ht : tiny ≤ 1) (P : Coo K) {N M : ℕ} {col : ℕ → ℕ} (h : Copies P N M col)
    (B : Modes K) (k : ℕ) (hk : k < B.cols.length)
    (hper : ∀ i < N, ∀ j < N, col i = col j → (B.cols.getD k []).getD i 0 = (B.cols.getD k []).getD j 0) :
    ∀ i < N, (P.matvec ((projectReduced tiny P B).cols.getD k [])).getD i 0 = (B.cols.getD k []).getD i 0 := by
  intro i hi
  rw [h.matvec_getD _ i hi]
  obtain ⟨-, -, -, hm⟩ := C128_projection_is_class_mean tiny ht P h B k hk (col i) ⟨i, hi, rfl⟩
  have hconst : ∑ j ∈ (Finset.range N).filter (fun j => col j = col i), (B.cols.getD k []).getD j 0 =
      (B.cols.getD k []).getD i 0 * (((Finset.range N).filter (fun j => col j = col i)).card : K) := by
    rw [Finset.sum_congr rfl (g := fun _ => (B.cols.getD k []).getD i 0), Finset.sum_const, nsmul_eq_mul, mul_comm]
    intro j hj
    rw [Finset.mem_filter, Finset.mem_range] at hj
    exact hper j hj.1 i hi hj.2
  rw [hconst] at hm
  refine mul_right_cancel₀ ?_ hm
  have : 0 < ((Finset.range N).filter (fun j => col j = col i)).card :=
    Finset.card_pos.mpr ⟨i, by simpa using hi⟩
  exact_mod_cast this.ne'

/-- **C128, periodic translations.** When periodicity ties equal components only, the projection of a translation is reproduced
exactly; so the constant displacements are in the near-null space of the reduced operator. -/
theorem C128_translations_survive (tiny : K) (ht : tiny ≤ 1) (dim : ℕ) (pts : List (List K)) (P : Coo K) {M : ℕ} {col : ℕ → ℕ}
    (h : Copies P (pts.length * dim) M col) (hcomp : ∀ i < pts.length * dim, ∀ j < pts.length * dim, col i = col j → i % dim = j % dim)
    {B : Modes K} (hB : rigidBodyModes [dim] dim pts none = some B) (k : ℕ) (hk : k < dim) :
    ∀ i < pts.length * dim, (P.matvec ((projectReduced tiny P B).cols.getD k [])).getD i 0 = if i % dim = k then 1 else 0 := by
  have hc := free_columns hB
  obtain ⟨hd, hl, -, he⟩ := modeColumns_entry hc
  have hkl : k < B.cols.length := by rw [hl]; rcases hd with rfl | rfl <;> simp <;> omega
  have hdp : 0 < dim := by omega
  have hv : ∀ i < pts.length * dim, (B.cols.getD k []).getD i 0 = if i % dim = k then 1 else 0 := by
    intro i hi
    have := he k hkl (i / dim) (Nat.div_lt_of_lt_mul (by rwa [Nat.mul_comm] at hi)) (i % dim) (Nat.mod_lt _ hdp)
    rw [Nat.div_add_mod'] at this
    rw [this, modeAt, if_pos hk]
  intro i hi
  rw [C128_projection_exact tiny ht P h B k hkl (fun i hi j hj hij => by rw [hv i hi, hv j hj, hcomp i hi j hj hij]) i hi, hv i hi]

end projection

section reduced
variable {K : Type} [Field K] [LinearOrder K]

/-- **C128, reduced path.** An array is accepted for the full or the reduced number of unknowns, and refused otherwise; what is
handed on has the reduced number of rows. The modes are projected by default and on request. -/
theorem C128_reduced_modes (tiny : K) (P : Coo K) (num : Option ℕ) (vec : List ℕ) (dim : ℕ) (pts : List (List K))
    (bc : Option (List ℕ)) :
    (∀ B, B.rows = P.rows → reducedCandidates tiny P (.array B) num vec dim pts bc = .ok (.given (some (projectReduced tiny P B)))) ∧
    (∀ B, B.rows ≠ P.rows → B.rows = P.cols → reducedCandidates tiny P (.array B) num vec dim pts bc = .ok (.given (some B))) ∧
    (∀ B, B.rows ≠ P.rows → B.rows ≠ P.cols → reducedCandidates tiny P (.array B) num vec dim pts bc = .error .valueError) ∧
    (∀ B, rigidBodyModes vec dim pts bc = some B →
      reducedCandidates tiny P .default num vec dim pts bc = .ok (.given (some (projectReduced tiny P B))) ∧
      ∀ s : String, s.toLower = "rigid_body" →
        reducedCandidates tiny P (.preset s) num vec dim pts bc = .ok (.given (some (projectReduced tiny P B)))) ∧
    (rigidBodyModes vec dim pts bc = none → reducedCandidates tiny P .default num vec dim pts bc = .ok (.given none)) ∧
    ∀ s : String, s.toLower ≠ "rigid_body" →
      reducedCandidates tiny P (.preset s) num vec dim pts bc = amgCandidates (.preset s) num vec dim pts bc := by
  have hconst : ("constant" : String).toLower = "constant" := by decide +kernel
  refine ⟨?_, ?_, ?_, ?_, ?_, ?_⟩
  · intro B hB
    simp [reducedCandidates, reducedNearNullspace, hB, amgCandidates, resolveNearNullspace, Except.map, bind, Except.bind]
  · intro B h1 h2
    simp [reducedCandidates, reducedNearNullspace, h1, h2 ▸ h1, h2, amgCandidates, resolveNearNullspace, Except.map, bind, Except.bind]
  · intro B h1 h2
    simp [reducedCandidates, reducedNearNullspace, h1, h2, bind, Except.bind]
  · intro B hB
    refine ⟨?_, fun s hs => ?_⟩
    · simp [reducedCandidates, reducedNearNullspace, hB, amgCandidates, resolveNearNullspace, Except.map, bind, Except.bind]
    · simp [reducedCandidates, reducedNearNullspace, hB, hs, amgCandidates, resolveNearNullspace, Except.map, bind, Except.bind]
  · intro hn
    have := (C128_presets num vec dim pts bc).2.2 "constant"
    simp [reducedCandidates, reducedNearNullspace, hn, this.2.2.1 hconst, bind, Except.bind]
  · intro s hs
    simp [reducedCandidates, reducedNearNullspace, hs, bind, Except.bind]

/-- **C128** (violation): where rigid body modes do not exist an explicit request for them is refused by the ordinary solvers, but with
a prolongation it is silently replaced by the constant near-null space. -/
theorem C128_reduced_request_silently_replaced (tiny : K) (P : Coo K) (num : Option ℕ) (vec : List ℕ) (dim : ℕ)
    (pts : List (List K)) (bc : Option (List ℕ)) (hno : ¬ (vec = [dim] ∧ (dim = 2 ∨ dim = 3))) :
    amgCandidates (.preset "rigid_body") num vec dim pts bc = .error .valueError ∧
    reducedCandidates tiny P (.preset "rigid_body") num vec dim pts bc = .ok (.given none) := by
  have hlow : ("rigid_body" : String).toLower = "rigid_body" := by decide +kernel
  have hconst : ("constant" : String).toLower = "constant" := by decide +kernel
  have h1 := ((C128_presets num vec dim pts bc).2.2 "rigid_body").2.1 hlow hno
  refine ⟨h1, ?_⟩
  have hn : rigidBodyModes vec dim pts bc = none := by
    cases hr : rigidBodyModes vec dim pts bc with
    | none => rfl
    | some B => simp [amgCandidates, resolveNearNullspace, hlow, hr, Except.map] at h1
  have := ((C128_presets num vec dim pts bc).2.2 "constant").2.2.1 hconst
  simp [reducedCandidates, reducedNearNullspace, hlow, hn, this, bind, Except.bind]

end reduced

/-! ## Concrete cases -/

section examples

/-- The triangle with nodes `(0,0)`, `(2,0)`, `(0,1)`: two translations and the rotation about the mean `(2/3, 1/3)`. -/
theorem exTri_modes : rigidBodyModes [2] 2 [[0, 0], [2, 0], [0, (1 : ℚ)]] none =
    some ⟨6, [[1, 0, 1, 0, 1, 0], [0, 1, 0, 1, 0, 1], [1 / 3, -2 / 3, 1 / 3, 4 / 3, -2 / 3, -2 / 3]]⟩ := by decide +kernel

/-- The unit tetrahedron. -/
def exTetPts : List (List ℚ) := [[0, 0, 0], [1, 0, 0], [0, 1, 0], [0, 0, 1]]

theorem exTet_modes : ∃ B, rigidBodyModes [3] 3 exTetPts none = some B ∧ B.cols.length = 6 ∧
    B.cols.getD 4 [] = [-1 / 4, 0, 1 / 4, -1 / 4, 0, -3 / 4, -1 / 4, 0, 1 / 4, 3 / 4, 0, 1 / 4] :=
  ⟨_, rfl, rfl, by decide +kernel⟩

example := C128_modes_shape (K := ℚ) [3] 3 exTetPts (some [0, 4])
example := C128_constrained_rows [2] 2 [[0, 0], [2, 0], [0, (1 : ℚ)]] [0, 3] (B := ⟨6, [[0, 0, 1, 0, 1, 0], [0, 1, 0, 0, 0, 1],
  [0, -2 / 3, 1 / 3, 0, -2 / 3, -2 / 3]]⟩) (by decide +kernel)
example := C128_modes_rigid [2] 2 _ exTri_modes [1 / 3, -2 / 3, 1 / 3, 4 / 3, -2 / 3, -2 / 3] (by simp)
example := C128_rotations_centred [2] 2 _ exTri_modes 2 (by decide) (by decide) 1 (by decide)

/-- The displacement `(x, y) ↦ (5 - 3 y, 2 + 3 x)` of the triangle. -/
example : ∃ a : ℕ → ℚ, ∀ i < 3 * 2, ([5, 2, 5, 8, 2, 2] : List ℚ).getD i 0 = ∑ k ∈ Finset.range 3, a k *
    (([[1, 0, 1, 0, 1, 0], [0, 1, 0, 1, 0, 1], [1 / 3, -2 / 3, 1 / 3, 4 / 3, -2 / 3, -2 / 3]] : List (List ℚ)).getD k []).getD i 0 :=
  C128_modes_span [2] 2 _ exTri_modes _ ⟨rotation 0 0 3, fun c => if c = 0 then 5 else 2, by
    intro c hc l hl
    interval_cases c <;> interval_cases l <;> simp [rotation], by
    intro n hn c hc
    simp only [List.length_cons, List.length_nil] at hn
    interval_cases n <;> interval_cases c <;> decide +kernel⟩

example := C128_modes_independent [2] 2 _ exTri_modes
  (fun _ => ⟨0, by decide, 1, by decide, 0, by decide, by decide +kernel⟩) (fun h => absurd h (by decide))

/-- The nodes of the tetrahedron are not collinear. -/
theorem exTet_spread : NotCollinear 3 exTetPts := by
  rintro e ⟨c, hc, he⟩
  interval_cases c
  · refine ⟨2, by decide, 0, by decide, 1, by decide, 0, by decide, ?_⟩
    simpa [position, exTetPts] using he
  · refine ⟨1, by decide, 0, by decide, 0, by decide, 1, by decide, ?_⟩
    simpa [position, exTetPts] using he
  · refine ⟨1, by decide, 0, by decide, 0, by decide, 2, by decide, ?_⟩
    simpa [position, exTetPts] using he

example {B : Modes ℚ} (h : rigidBodyModes [3] 3 exTetPts none = some B) (a : ℕ → ℚ) :=
  C128_modes_independent [3] 3 _ h (by decide) (fun _ => exTet_spread) a

/-- A linear elastic stress on the triangle. -/
def exElastic (H : List (List ℚ)) (_ : List ℚ) : List (List ℚ) :=
  let h := fun a b => (H.getD a []).getD b 0
  [[3 * h 0 0 + h 1 1, h 0 1 + h 1 0], [h 0 1 + h 1 0, h 0 0 + 3 * h 1 1]]

def exElasticDisc : Discretization ℚ (List (QPoint ℚ)) (List (QPoint ℚ)) :=
  formDisc exTriProblem 2 (formOf none (some exElastic)) (fun _ _ _ _ => [])
    [[⟨[2 / 3, 1 / 3], [], [⟨[1 / 3, 1 / 3, 1 / 3], [[-1 / 2, -1], [1 / 2, 0], [0, 1]], 1⟩]⟩]] []

theorem exElasticDisc_kernels : FormKernels exElasticDisc 2 (formOf none (some exElastic)) (fun _ _ _ _ => []) where
  vol := fun _ _ => rfl
  surf := fun _ _ _ => rfl
  cellPts := by
    intro pts hpts q hq
    simp only [exElasticDisc, formDisc, List.mem_cons, List.not_mem_nil, or_false] at hpts
    subst hpts
    simp only [List.mem_cons, List.not_mem_nil, or_false] at hq
    subst hq
    exact ⟨rfl, rfl⟩
  facePts := by
    intro fs hfs
    simp [exElasticDisc, formDisc] at hfs

theorem exElasticDisc_consistent : MeshConsistent exElasticDisc 2 0 (position [[0, 0], [2, 0], [0, (1 : ℚ)]]) where
  cellPos := fun cell hc q hq => exTriDisc_consistent.cellPos cell hc q hq
  cellGrad := fun cell hc q hq => exTriDisc_consistent.cellGrad cell hc q hq
  facePos := by
    intro bd hb
    simp [exElasticDisc, formDisc] at hb

/-- The rotation of the triangle has no residual; a stretch has one. -/
example : (∀ i < 6, (exElasticDisc.residualAt [1 / 3, -2 / 3, 1 / 3, 4 / 3, -2 / 3, -2 / 3]).getD i 0 = 0) ∧
    (exElasticDisc.residualAt [0, 0, 2, 0, 0, 0]).getD 2 0 ≠ 0 := by
  constructor
  · refine C128_modes_have_no_residual exElasticDisc (formDisc_ok _ exTriProblem_wf _ _ _ _ _ rfl .nil) ⟨2, 3, 3, [[0, 1, 2]]⟩ rfl 2
      [[0, 0], [2, 0], [0, 1]] rfl exElastic exElasticDisc_kernels exElasticDisc_consistent ?_ exTri_modes _ (by simp)
    intro W iv hW c hc l hl
    have h01 := hW 0 (by decide) 1 (by decide)
    have h00 : W 0 0 = 0 := by have := hW 0 (by decide) 0 (by decide); linarith
    have h11 : W 1 1 = 0 := by have := hW 1 (by decide) 1 (by decide); linarith
    interval_cases c <;> interval_cases l <;> simp [exElastic, List.range_succ, h00, h11, h01]
  · decide +kernel

/-- Three nodes on a line, the last a copy of the first; two components. -/
def exTieA : Coo ℚ := ⟨6, 4, [(0, 0, 1), (1, 1, 1), (2, 2, 1), (3, 3, 1), (4, 0, 1), (5, 1, 1)]⟩

theorem exTie_copies : Copies exTieA 6 4 (fun i => i % 4) := ⟨rfl, rfl, by decide +kernel, by decide⟩

theorem exTie_modes : ∃ B, rigidBodyModes [2] 2 [[0, 0], [1, 0], [2, (0 : ℚ)]] none = some B ∧
    (projectReduced (1 / 10 ^ 30) exTieA B).cols = [[1, 0, 1, 0], [0, 1, 0, 1], [0, 0, 0, 0]] := ⟨_, rfl, by decide +kernel⟩

example {B : Modes ℚ} (h : rigidBodyModes [2] 2 [[0, 0], [1, 0], [2, (0 : ℚ)]] none = some B) :=
  C128_translations_survive (1 / 10 ^ 30) (by norm_num) 2 [[0, 0], [1, 0], [2, 0]] exTieA (M := 4) (col := fun i => i % 4)
    exTie_copies (by decide) h 1 (by decide)

example := C128_projection_is_class_mean (1 / 10 ^ 30) (by norm_num) exTieA exTie_copies ⟨6, [[1, 2, 3, 4, 5, 6]]⟩ 0 (by decide) 1
  ⟨5, by decide, rfl⟩
example := C128_projection_exact (1 / 10 ^ 30) (by norm_num) exTieA exTie_copies ⟨6, [[1, 2, 3, 4, 1, 2]]⟩ 0 (by decide) (by decide +kernel)

example : ("Rigid_Body" : String).toLower = "rigid_body" := by decide +kernel

example := C128_reduced_request_silently_replaced (1 / 10 ^ 30 : ℚ) exTieA none [1] 2 [[0, 0], [1, 0], [2, 0]] none (by decide)

end examples

end Verif.Props
