import Verif.Props.Grid
import Mathlib.Tactic.Linarith
import Mathlib.Data.Rat.Floor

/-!
# C36: fitting a grid to points
-/

namespace Verif.Props

open Verif.Model Verif.Lemmas

section
variable {K : Type*} [Field K] [LinearOrder K] [IsStrictOrderedRing K] [FloorRing K]

omit [Field K] [IsStrictOrderedRing K] [FloorRing K] in
theorem axisMin_le (x : K) (xs : List K) : axisMin x xs ≤ x ∧ ∀ y ∈ xs, axisMin x xs ≤ y := by
  induction xs generalizing x with
  | nil => exact ⟨le_rfl, by simp⟩
  | cons a rest ih =>
    obtain ⟨h1, h2⟩ := ih (min x a)
    have e : axisMin x (a :: rest) = axisMin (min x a) rest := rfl
    rw [e]
    refine ⟨h1.trans (min_le_left _ _), ?_⟩
    intro y hy
    rcases List.mem_cons.1 hy with rfl | h
    · exact h1.trans (min_le_right _ _)
    · exact h2 y h

omit [Field K] [IsStrictOrderedRing K] [FloorRing K] in
theorem le_axisMax (x : K) (xs : List K) : x ≤ axisMax x xs ∧ ∀ y ∈ xs, y ≤ axisMax x xs := by
  induction xs generalizing x with
  | nil => exact ⟨le_rfl, by simp⟩
  | cons a rest ih =>
    obtain ⟨h1, h2⟩ := ih (max x a)
    have e : axisMax x (a :: rest) = axisMax (max x a) rest := rfl
    rw [e]
    refine ⟨(le_max_left _ _).trans h1, ?_⟩
    intro y hy
    rcases List.mem_cons.1 hy with rfl | h
    · exact (le_max_right _ _).trans h1
    · exact h2 y h

theorem le_alignUp (d a : ℤ) (ha : 0 ≤ a) : d ≤ alignUp d a := by
  unfold alignUp
  split
  · exact le_rfl
  · have hpos : 0 < a := by omega
    have h1 := Int.emod_add_mul_ediv (d + a - 1) a
    have h2 := Int.emod_lt_of_pos (d + a - 1) hpos
    have h3 : (d + a - 1) / a * a = a * ((d + a - 1) / a) := by ring
    omega

/-- One axis fitted by cell size with at least one cell of padding. -/
theorem axis_h_inside (lo hi h p : K) (pad align : ℤ) (hh : 0 < h) (hp : 1 ≤ pad) (ha : 0 ≤ align)
    (h1 : lo ≤ p) (h2 : p ≤ hi) :
    let r := fitAxisH lo hi h pad none
    0 ≤ ⌊(p - r.1) / h⌋ ∧ ⌊(p - r.1) / h⌋ < (alignUp r.2 align).toNat := by
  intro r
  have e1 : r.1 = lo - pad * h := rfl
  have e2 : r.2 = max 1 ⌈(hi + pad * h - (lo - pad * h)) / h⌉ := rfl
  have hpK : (1 : K) ≤ (pad : K) := by exact_mod_cast hp
  have hpos : 0 ≤ ⌊(p - r.1) / h⌋ := by
    rw [Int.floor_nonneg, e1]
    apply div_nonneg _ hh.le
    nlinarith
  refine ⟨hpos, ?_⟩
  have hlt : ⌊(p - r.1) / h⌋ < r.2 := by
    rw [Int.floor_lt, e2, e1]
    have hc : (hi + pad * h - (lo - pad * h)) / h ≤ ((⌈(hi + pad * h - (lo - pad * h)) / h⌉ : ℤ) : K) := Int.le_ceil _
    have hm : ((⌈(hi + pad * h - (lo - pad * h)) / h⌉ : ℤ) : K) ≤ ((max 1 ⌈(hi + pad * h - (lo - pad * h)) / h⌉ : ℤ) : K) := by
      exact_mod_cast le_max_right _ _
    refine lt_of_lt_of_le ?_ (hc.trans hm)
    rw [div_lt_div_iff_of_pos_right hh]
    nlinarith
  have := le_alignUp r.2 align ha
  have h3 : r.2 ≤ alignUp r.2 align := this
  omega

theorem pointCell_inside (g : Grid) (sp org p : K × K × K)
    (h1 : 0 ≤ ⌊(p.1 - org.1) / sp.1⌋ ∧ ⌊(p.1 - org.1) / sp.1⌋ < (g.nx : ℤ))
    (h2 : 0 ≤ ⌊(p.2.1 - org.2.1) / sp.2.1⌋ ∧ ⌊(p.2.1 - org.2.1) / sp.2.1⌋ < (g.ny : ℤ))
    (h3 : 0 ≤ ⌊(p.2.2 - org.2.2) / sp.2.2⌋ ∧ ⌊(p.2.2 - org.2.2) / sp.2.2⌋ < (g.nz : ℤ)) :
    0 ≤ g.pointCell sp org p ∧ g.pointCell sp org p < g.numCells := by
  unfold Grid.pointCell
  simp only
  rw [if_pos ⟨h1.1, h1.2, h2.1, h2.2, h3.1, h3.2⟩]
  obtain ⟨a, ea⟩ := Int.eq_ofNat_of_zero_le h1.1
  obtain ⟨b, eb⟩ := Int.eq_ofNat_of_zero_le h2.1
  obtain ⟨c, ec⟩ := Int.eq_ofNat_of_zero_le h3.1
  rw [ea] at h1
  rw [eb] at h2
  rw [ec] at h3
  rw [ea, eb, ec]
  have e : ((a : ℤ) * g.ny + b) * g.nz + c = (((a * g.ny + b) * g.nz + c : ℕ) : ℤ) := by push_cast; ring
  rw [e]
  refine ⟨Int.natCast_nonneg _, ?_⟩
  have := lin_lt g.nx g.ny g.nz a b c (by omega) (by omega) (by omega)
  exact_mod_cast this

/-- `point_cells` agrees with the geometry: the cell returned contains the point (half-open box). -/
theorem pointCell_contains (g : Grid) (sp org p : K × K × K) (hs1 : 0 < sp.1) (hs2 : 0 < sp.2.1) (hs3 : 0 < sp.2.2)
    (h : 0 ≤ g.pointCell sp org p) :
    ∃ i j k, i < g.nx ∧ j < g.ny ∧ k < g.nz ∧ g.pointCell sp org p = g.cellId (i, j, k) ∧
      (org.1 + i * sp.1 ≤ p.1 ∧ p.1 < org.1 + (i + 1) * sp.1) ∧
      (org.2.1 + j * sp.2.1 ≤ p.2.1 ∧ p.2.1 < org.2.1 + (j + 1) * sp.2.1) ∧
      (org.2.2 + k * sp.2.2 ≤ p.2.2 ∧ p.2.2 < org.2.2 + (k + 1) * sp.2.2) := by
  unfold Grid.pointCell at h ⊢
  simp only at h ⊢
  split at h
  · rename_i hc
    rw [if_pos hc]
    obtain ⟨a1, a2, b1, b2, c1, c2⟩ := hc
    obtain ⟨a, ea⟩ := Int.eq_ofNat_of_zero_le a1
    obtain ⟨b, eb⟩ := Int.eq_ofNat_of_zero_le b1
    obtain ⟨c, ec⟩ := Int.eq_ofNat_of_zero_le c1
    rw [ea] at a2
    rw [eb] at b2
    rw [ec] at c2
    have key : ∀ (x o s : K) (n : ℕ), 0 < s → ⌊(x - o) / s⌋ = (n : ℤ) → o + n * s ≤ x ∧ x < o + (n + 1) * s := by
      intro x o s n hs he
      rw [Int.floor_eq_iff] at he
      obtain ⟨h1, h2⟩ := he
      rw [le_div_iff₀ hs] at h1
      rw [div_lt_iff₀ hs] at h2
      push_cast at h1 h2
      constructor <;> linarith
    refine ⟨a, b, c, by omega, by omega, by omega, ?_, key _ _ _ _ hs1 ea, key _ _ _ _ hs2 eb, key _ _ _ _ hs3 ec⟩
    rw [ea, eb, ec]
    unfold Grid.cellId
    push_cast
    ring
  · simp at h

/-- C36 (partial). Fitting by cell size with padding of at least one cell and the default origin: every fitted
point gets the id of a cell of the grid, and that cell contains the point.

Missing: fits by `dims` (`C36_dims_excludes_maximum`), fits without padding (`C36_no_padding_excludes_maximum`)
and fits with an explicit origin, which may be anywhere. -/
theorem C36_fit_by_size_partial (points : List (K × K × K)) (h : K × K × K) (dims : Option (ℤ × ℤ × ℤ)) (pad align : ℤ)
    (hne : points ≠ []) (h1 : 0 < h.1) (h2 : 0 < h.2.1) (h3 : 0 < h.2.2) (hp : 1 ≤ pad) (ha : 0 ≤ align) :
    ∃ g sp org, fit points (some h) dims pad none align = .ok (g, sp, org) ∧
      ∀ p ∈ points, 0 ≤ g.pointCell sp org p ∧ g.pointCell sp org p < g.numCells ∧
        ∃ i j k, g.pointCell sp org p = g.cellId (i, j, k) ∧
          (org.1 + i * sp.1 ≤ p.1 ∧ p.1 < org.1 + (i + 1) * sp.1) ∧
          (org.2.1 + j * sp.2.1 ≤ p.2.1 ∧ p.2.1 < org.2.1 + (j + 1) * sp.2.1) ∧
          (org.2.2 + k * sp.2.2 ≤ p.2.2 ∧ p.2.2 < org.2.2 + (k + 1) * sp.2.2) := by
  cases points with
  | nil => exact absurd rfl hne
  | cons q qs =>
    refine ⟨_, _, _, rfl, ?_⟩
    intro p hp'
    have key : ∀ (f : K × K × K → K), axisMin (f q) (qs.map f) ≤ f p ∧ f p ≤ axisMax (f q) (qs.map f) := by
      intro f
      rcases List.mem_cons.1 hp' with rfl | hm
      · exact ⟨(axisMin_le _ _).1, (le_axisMax _ _).1⟩
      · exact ⟨(axisMin_le _ _).2 _ (List.mem_map_of_mem hm), (le_axisMax _ _).2 _ (List.mem_map_of_mem hm)⟩
    obtain ⟨a1, a2⟩ := key (fun r => r.1)
    obtain ⟨b1, b2⟩ := key (fun r => r.2.1)
    obtain ⟨c1, c2⟩ := key (fun r => r.2.2)
    have hin := pointCell_inside
      ⟨(alignUp (fitAxisH (axisMin q.1 (qs.map fun r => r.1)) (axisMax q.1 (qs.map fun r => r.1)) h.1 pad none).2 align).toNat,
       (alignUp (fitAxisH (axisMin q.2.1 (qs.map fun r => r.2.1)) (axisMax q.2.1 (qs.map fun r => r.2.1)) h.2.1 pad none).2 align).toNat,
       (alignUp (fitAxisH (axisMin q.2.2 (qs.map fun r => r.2.2)) (axisMax q.2.2 (qs.map fun r => r.2.2)) h.2.2 pad none).2 align).toNat⟩
      h (_, _, _) p
      (axis_h_inside _ _ h.1 p.1 pad align h1 hp ha a1 a2)
      (axis_h_inside _ _ h.2.1 p.2.1 pad align h2 hp ha b1 b2)
      (axis_h_inside _ _ h.2.2 p.2.2 pad align h3 hp ha c1 c2)
    obtain ⟨i, j, k, _, _, _, e1, e2, e3, e4⟩ := pointCell_contains _ _ _ _ h1 h2 h3 hin.1
    exact ⟨hin.1, hin.2, i, j, k, e1, e2, e3, e4⟩

/-- C36 fails for every fit by `dims` (without `align` and with the default origin): a point that is maximal
in the first direction, in a point set that is not flat in that direction, is reported outside the grid. -/
theorem C36_dims_excludes_maximum (points : List (K × K × K)) (dims : ℤ × ℤ × ℤ) (pad : ℤ) (p q : K × K × K)
    (hp : p ∈ points) (hq : q ∈ points) (hmax : ∀ r ∈ points, r.1 ≤ p.1) (hlt : q.1 < p.1) (hd : 1 ≤ dims.1) :
    ∃ g sp org, fit points none (some dims) pad none 0 = .ok (g, sp, org) ∧ g.pointCell sp org p = -1 := by
  cases points with
  | nil => simp at hp
  | cons a as =>
    refine ⟨_, _, _, rfl, ?_⟩
    unfold Grid.pointCell
    simp only
    rw [if_neg]
    rintro ⟨_, hx, _⟩
    have hhi : axisMax a.1 (as.map (·.1)) = p.1 := by
      apply le_antisymm
      · have hm : ∀ (x : K) (xs : List K), (x ≤ p.1) → (∀ y ∈ xs, y ≤ p.1) → axisMax x xs ≤ p.1 := by
          intro x xs
          induction xs generalizing x with
          | nil => intro h _; exact h
          | cons b rest ih =>
            intro hx hxs
            exact ih (max x b) (max_le hx (hxs b (by simp))) fun y hy => hxs y (by simp [hy])
        apply hm
        · exact hmax a (by simp)
        · intro y hy
          rw [List.mem_map] at hy
          obtain ⟨r, hr, rfl⟩ := hy
          exact hmax r (by simp [hr])
      · rcases List.mem_cons.1 hp with h | h
        · rw [h]; exact (le_axisMax _ _).1
        · exact (le_axisMax _ _).2 _ (List.mem_map_of_mem h)
    have hlo : axisMin a.1 (as.map (·.1)) < p.1 := by
      refine lt_of_le_of_lt ?_ hlt
      rcases List.mem_cons.1 hq with h | h
      · rw [h]; exact (axisMin_le _ _).1
      · exact (axisMin_le _ _).2 _ (List.mem_map_of_mem h)
    set lo := axisMin a.1 (as.map (·.1)) with elo
    have hdK : (0 : K) < ((max dims.1 1 : ℤ) : K) := by
      have : 0 < max dims.1 1 := by omega
      exact_mod_cast this
    have e : (p.1 - (fitAxisDims lo (axisMax a.1 (as.map (·.1))) dims.1 none).1) /
        (fitAxisDims lo (axisMax a.1 (as.map (·.1))) dims.1 none).2 = ((max dims.1 1 : ℤ) : K) := by
      have e1 : fitAxisDims lo (axisMax a.1 (as.map (·.1))) dims.1 none =
          (lo, (axisMax a.1 (as.map (·.1)) - lo) / ((max dims.1 1 : ℤ) : K)) := rfl
      rw [e1, hhi]
      have hne : p.1 - lo ≠ 0 := by
        have := sub_pos.2 hlo
        exact this.ne'
      field_simp
    have e2 : ⌊(p.1 - (fitAxisDims lo (axisMax a.1 (as.map (·.1))) dims.1 none).1) /
        (fitAxisDims lo (axisMax a.1 (as.map (·.1))) dims.1 none).2⌋ = max dims.1 1 := by
      rw [e, Int.floor_intCast]
    have hx' : ⌊(p.1 - (fitAxisDims lo (axisMax a.1 (as.map (·.1))) dims.1 none).1) /
        (fitAxisDims lo (axisMax a.1 (as.map (·.1))) dims.1 none).2⌋ < ((alignUp dims.1 0).toNat : ℤ) := hx
    rw [e2] at hx'
    have e3 : alignUp dims.1 0 = dims.1 := rfl
    rw [e3] at hx'
    omega

end

/-- C36 fails without padding: the far corner of the unit cube is outside the grid fitted to it with cells of
size 1/2. -/
theorem C36_no_padding_excludes_maximum :
    ∃ g sp org, fit [((0 : ℚ), (0 : ℚ), (0 : ℚ)), (1, 1, 1)] (some (1 / 2, 1 / 2, 1 / 2)) none 0 none 0 = .ok (g, sp, org) ∧
      g.pointCell sp org (1, 1, 1) = -1 := by
  refine ⟨_, _, _, rfl, ?_⟩
  decide +kernel

/-- With one cell of padding it is in cell (3, 3, 3) of a 4×4×4 grid. -/
example : ∃ g sp org, fit [((0 : ℚ), (0 : ℚ), (0 : ℚ)), (1, 1, 1)] (some (1 / 2, 1 / 2, 1 / 2)) none 1 none 0 =
    .ok (g, sp, org) ∧ g.pointCell sp org (1, 1, 1) = g.cellId (3, 3, 3) ∧ g = ⟨4, 4, 4⟩ := by
  refine ⟨_, _, _, rfl, ?_⟩
  decide +kernel

/-- The corner of the unit cube is lost by a fit with 4 cells per direction. -/
example : ∃ g sp org, fit [((0 : ℚ), (0 : ℚ), (0 : ℚ)), (1, 1, 1)] none (some (4, 4, 4)) 1 none 0 = .ok (g, sp, org) ∧
    g.pointCell sp org (1, 1, 1) = -1 :=
  C36_dims_excludes_maximum _ (4, 4, 4) 1 (1, 1, 1) (0, 0, 0) (by simp) (by simp) (by simp) (by norm_num) (by norm_num)

section
variable {K : Type*} [Field K] [LinearOrder K] [IsStrictOrderedRing K] [FloorRing K]

omit [LinearOrder K] [IsStrictOrderedRing K] [FloorRing K] in
/-- The node coordinates of an in-range cell, listed. -/
theorem cellToNodes_coords (g : Grid) (sp org : K × K × K) (e : ℕ) (he : e < g.numCells) :
    (g.cellToNodes e).map (g.nodeCoords sp org) = hexOffsets.map fun o =>
      (org.1 + (((g.cellIjk e).1 + o.1 : ℕ) : K) * sp.1, org.2.1 + (((g.cellIjk e).2.1 + o.2.1 : ℕ) : K) * sp.2.1,
        org.2.2 + (((g.cellIjk e).2.2 + o.2.2 : ℕ) : K) * sp.2.2) := by
  obtain ⟨_, h1, h2, h3⟩ := cellId_cellIjk g e he
  unfold Grid.cellToNodes
  rw [List.map_map]
  apply List.map_congr_left
  intro o ho
  have hb : o.1 ≤ 1 ∧ o.2.1 ≤ 1 ∧ o.2.2 ≤ 1 := by
    revert o
    decide
  show g.nodeCoords sp org (g.nodeId ((g.cellIjk e).1 + o.1, (g.cellIjk e).2.1 + o.2.1, (g.cellIjk e).2.2 + o.2.2)) = _
  unfold Grid.nodeCoords
  rw [nodeIjk_nodeId g _ (by simp only; omega) (by simp only; omega)]

/-- **C29/C36** (cell centroids). The centroid of a cell is the mean of the coordinates of its eight nodes, and it lies in the
cell: `point_cells` returns the cell itself. -/
theorem C36_cell_centroid (g : Grid) (sp org : K × K × K) (e : ℕ) (he : e < g.numCells)
    (hs1 : 0 < sp.1) (hs2 : 0 < sp.2.1) (hs3 : 0 < sp.2.2) :
    ((((g.cellToNodes e).map fun n => (g.nodeCoords sp org n).1).sum = 8 * (g.cellCentroid sp org e).1 ∧
      ((g.cellToNodes e).map fun n => (g.nodeCoords sp org n).2.1).sum = 8 * (g.cellCentroid sp org e).2.1 ∧
      ((g.cellToNodes e).map fun n => (g.nodeCoords sp org n).2.2).sum = 8 * (g.cellCentroid sp org e).2.2)) ∧
    g.pointCell sp org (g.cellCentroid sp org e) = e := by
  have hc := cellToNodes_coords g sp org e he
  obtain ⟨h0, h1, h2, h3⟩ := cellId_cellIjk g e he
  constructor
  · have t := fun f : K × K × K → K => congrArg (fun l => (l.map f).sum) hc
    simp only [List.map_map] at t
    refine ⟨?_, ?_, ?_⟩
    · refine (t fun x => x.1).trans ?_
      simp [hexOffsets, Grid.cellCentroid]
      ring
    · refine (t fun x => x.2.1).trans ?_
      simp [hexOffsets, Grid.cellCentroid]
      ring
    · refine (t fun x => x.2.2).trans ?_
      simp [hexOffsets, Grid.cellCentroid]
      ring
  · have fl : ∀ (o s : K) (n : ℕ), 0 < s → ⌊(o + ((n : K) + 1 / 2) * s - o) / s⌋ = (n : ℤ) := by
      intro o s n hs
      have : (o + ((n : K) + 1 / 2) * s - o) / s = (n : K) + 1 / 2 := by
        field_simp
        ring
      rw [this, Int.floor_eq_iff]
      constructor
      · push_cast
        have : (0 : K) < 1 / 2 := by positivity
        linarith
      · push_cast
        have : (1 : K) / 2 < 1 := by norm_num
        linarith
    unfold Grid.pointCell Grid.cellCentroid
    simp only [fl _ _ _ hs1, fl _ _ _ hs2, fl _ _ _ hs3]
    rw [if_pos ⟨by omega, by omega, by omega, by omega, by omega, by omega⟩]
    have : ((g.cellId (g.cellIjk e) : ℕ) : ℤ) = (e : ℤ) := by rw [h0]
    rw [← this]
    unfold Grid.cellId
    push_cast
    rfl

example : (⟨2, 3, 4⟩ : Grid).cellCentroid ((1 : ℚ), (1 : ℚ), (1 : ℚ)) (0, 0, 0) 13 = (3 / 2, 1 / 2, 3 / 2) := by decide +kernel

/-- **C36** (`voxelize`). The cells are listed in increasing order, without repetition, and a cell is listed exactly when one
of the points lies in it. -/
theorem C36_voxelize (g : Grid) (sp org : K × K × K) (pts : List (K × K × K))
    (hs1 : 0 < sp.1) (hs2 : 0 < sp.2.1) (hs3 : 0 < sp.2.2) :
    (g.voxelize sp org pts).Pairwise (· < ·) ∧
    ∀ i j k, i < g.nx → j < g.ny → k < g.nz →
      (g.cellId (i, j, k) ∈ g.voxelize sp org pts ↔ ∃ p ∈ pts,
        (org.1 + i * sp.1 ≤ p.1 ∧ p.1 < org.1 + (i + 1) * sp.1) ∧
        (org.2.1 + j * sp.2.1 ≤ p.2.1 ∧ p.2.1 < org.2.1 + (j + 1) * sp.2.1) ∧
        (org.2.2 + k * sp.2.2 ≤ p.2.2 ∧ p.2.2 < org.2.2 + (k + 1) * sp.2.2)) := by
  refine ⟨unique_lt _, ?_⟩
  intro i j k hi hj hk
  unfold Grid.voxelize
  rw [mem_unique]
  simp only [List.mem_map, List.mem_filter, decide_eq_true_eq]
  constructor
  · rintro ⟨_, ⟨⟨p, hp, rfl⟩, h0⟩, he⟩
    obtain ⟨i', j', k', hi', hj', hk', e, hx, hy, hz⟩ := pointCell_contains g sp org p hs1 hs2 hs3 h0
    have hid : g.cellId (i', j', k') = g.cellId (i, j, k) := by
      rw [e] at he
      simpa using he
    have := congrArg g.cellIjk hid
    rw [cellIjk_cellId g _ hj' hk', cellIjk_cellId g _ hj hk] at this
    simp only [Prod.mk.injEq] at this
    obtain ⟨rfl, rfl, rfl⟩ := this
    exact ⟨p, hp, hx, hy, hz⟩
  · rintro ⟨p, hp, hx, hy, hz⟩
    have fl : ∀ (o s x : K) (n : ℕ), 0 < s → o + n * s ≤ x ∧ x < o + (n + 1) * s → ⌊(x - o) / s⌋ = (n : ℤ) := by
      intro o s x n hs hx
      rw [Int.floor_eq_iff]
      push_cast
      rw [le_div_iff₀ hs, div_lt_iff₀ hs]
      constructor <;> linarith [hx.1, hx.2]
    have e : g.pointCell sp org p = (g.cellId (i, j, k) : ℕ) := by
      unfold Grid.pointCell
      simp only [fl _ _ _ _ hs1 hx, fl _ _ _ _ hs2 hy, fl _ _ _ _ hs3 hz]
      rw [if_pos ⟨by omega, by omega, by omega, by omega, by omega, by omega⟩]
      unfold Grid.cellId
      push_cast
      rfl
    exact ⟨_, ⟨⟨p, hp, rfl⟩, by rw [e]; omega⟩, by rw [e]; simp⟩

/-- Two points of cell 0, one of cell 7, one outside. -/
example : (⟨2, 2, 2⟩ : Grid).voxelize ((1 : ℚ), (1 : ℚ), (1 : ℚ)) (0, 0, 0)
    [(3 / 2, 3 / 2, 3 / 2), (0, 0, 0), (1 / 2, 1 / 2, 1 / 2), (2, 0, 0)] = [0, 7] := by decide +kernel

end

section
variable {K : Type*} [Field K] [LinearOrder K] [IsStrictOrderedRing K] [FloorRing K]

theorem axis_dims_inside (lo hi x : K) (d align : ℤ) (hd : 1 ≤ d) (ha : 0 ≤ align) (h1 : lo ≤ x) (h2 : x < hi) :
    0 ≤ ⌊(x - (fitAxisDims lo hi d none).1) / (fitAxisDims lo hi d none).2⌋ ∧
      ⌊(x - (fitAxisDims lo hi d none).1) / (fitAxisDims lo hi d none).2⌋ < ((alignUp d align).toNat : ℤ) := by
  have hm : max d 1 = d := max_eq_left hd
  simp only [fitAxisDims, hm]
  have hd' : (0 : K) < (d : K) := by exact_mod_cast (by omega : (0 : ℤ) < d)
  have hs : 0 < (hi - lo) / (d : K) := div_pos (by linarith) hd'
  constructor
  · exact Int.floor_nonneg.2 (div_nonneg (by linarith) hs.le)
  · have h3 : (x - lo) / ((hi - lo) / (d : K)) < (d : K) := by
      rw [div_lt_iff₀ hs, mul_div_cancel₀ _ hd'.ne']
      linarith
    have h4 : ⌊(x - lo) / ((hi - lo) / (d : K))⌋ < d := Int.floor_lt.2 h3
    have := le_alignUp d align ha
    omega

/-- **C36** (partial, fit by `dims`). The grid has the requested number of cells in each direction, and every fitted point
below the maximum in each direction is in the cell that `point_cells` names. Missing: the points at the maximum, which are
reported outside (`C36_dims_excludes_maximum`). -/
theorem C36_fit_by_dims_partial (points : List (K × K × K)) (dims : ℤ × ℤ × ℤ) (pad align : ℤ)
    (hne : points ≠ []) (h1 : 1 ≤ dims.1) (h2 : 1 ≤ dims.2.1) (h3 : 1 ≤ dims.2.2) (ha : 0 ≤ align) :
    ∃ g sp org, fit points none (some dims) pad none align = .ok (g, sp, org) ∧
      (align = 0 → (g.nx : ℤ) = dims.1 ∧ (g.ny : ℤ) = dims.2.1 ∧ (g.nz : ℤ) = dims.2.2) ∧
      ∀ p ∈ points, (∃ q ∈ points, p.1 < q.1) → (∃ q ∈ points, p.2.1 < q.2.1) → (∃ q ∈ points, p.2.2 < q.2.2) →
        ∃ i j k, i < g.nx ∧ j < g.ny ∧ k < g.nz ∧ g.pointCell sp org p = g.cellId (i, j, k) ∧
          (org.1 + i * sp.1 ≤ p.1 ∧ p.1 < org.1 + (i + 1) * sp.1) ∧
          (org.2.1 + j * sp.2.1 ≤ p.2.1 ∧ p.2.1 < org.2.1 + (j + 1) * sp.2.1) ∧
          (org.2.2 + k * sp.2.2 ≤ p.2.2 ∧ p.2.2 < org.2.2 + (k + 1) * sp.2.2) := by
  cases points with
  | nil => exact absurd rfl hne
  | cons a as =>
    refine ⟨_, _, _, rfl, ?_, ?_⟩
    · rintro rfl
      simp only [alignUp, if_true]
      omega
    intro p hp hx hy hz
    have key : ∀ (f : K × K × K → K), (∃ q ∈ a :: as, f p < f q) →
        axisMin (f a) (as.map f) ≤ f p ∧ f p < axisMax (f a) (as.map f) := by
      rintro f ⟨q, hq, hlt⟩
      constructor
      · rcases List.mem_cons.1 hp with rfl | hm
        · exact (axisMin_le _ _).1
        · exact (axisMin_le _ _).2 _ (List.mem_map_of_mem hm)
      · refine hlt.trans_le ?_
        rcases List.mem_cons.1 hq with rfl | hm
        · exact (le_axisMax _ _).1
        · exact (le_axisMax _ _).2 _ (List.mem_map_of_mem hm)
    obtain ⟨a1, a2⟩ := key (fun r => r.1) hx
    obtain ⟨b1, b2⟩ := key (fun r => r.2.1) hy
    obtain ⟨c1, c2⟩ := key (fun r => r.2.2) hz
    have pos : ∀ (lo hi x : K) (d : ℤ), 1 ≤ d → lo ≤ x → x < hi → 0 < (fitAxisDims lo hi d none).2 := by
      intro lo hi x d hd u v
      have hm : max d 1 = d := max_eq_left hd
      simp only [fitAxisDims, hm]
      have hd' : (0 : K) < (d : K) := by exact_mod_cast (by omega : (0 : ℤ) < d)
      exact div_pos (by linarith) hd'
    have hin := pointCell_inside
      ⟨(alignUp dims.1 align).toNat, (alignUp dims.2.1 align).toNat, (alignUp dims.2.2 align).toNat⟩
      ((fitAxisDims (axisMin a.1 (as.map fun r => r.1)) (axisMax a.1 (as.map fun r => r.1)) dims.1 none).2,
        (fitAxisDims (axisMin a.2.1 (as.map fun r => r.2.1)) (axisMax a.2.1 (as.map fun r => r.2.1)) dims.2.1 none).2,
        (fitAxisDims (axisMin a.2.2 (as.map fun r => r.2.2)) (axisMax a.2.2 (as.map fun r => r.2.2)) dims.2.2 none).2)
      ((fitAxisDims (axisMin a.1 (as.map fun r => r.1)) (axisMax a.1 (as.map fun r => r.1)) dims.1 none).1,
        (fitAxisDims (axisMin a.2.1 (as.map fun r => r.2.1)) (axisMax a.2.1 (as.map fun r => r.2.1)) dims.2.1 none).1,
        (fitAxisDims (axisMin a.2.2 (as.map fun r => r.2.2)) (axisMax a.2.2 (as.map fun r => r.2.2)) dims.2.2 none).1)
      p
      (axis_dims_inside _ _ p.1 dims.1 align h1 ha a1 a2)
      (axis_dims_inside _ _ p.2.1 dims.2.1 align h2 ha b1 b2)
      (axis_dims_inside _ _ p.2.2 dims.2.2 align h3 ha c1 c2)
    exact pointCell_contains _ _ _ _ (pos _ _ _ _ h1 a1 a2) (pos _ _ _ _ h2 b1 b2) (pos _ _ _ _ h3 c1 c2) hin.1

/-- A 2×3×4 grid fitted to the corners of a box. -/
example : ∃ g sp org, fit [((0 : ℚ), (0 : ℚ), (0 : ℚ)), (2, 3, 4)] none (some (2, 3, 4)) 1 none 0 = .ok (g, sp, org) ∧
    g = ⟨2, 3, 4⟩ ∧ g.pointCell sp org (0, 0, 0) = 0 := by
  refine ⟨_, _, _, rfl, ?_⟩
  decide +kernel

end

end Verif.Props
