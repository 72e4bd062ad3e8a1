import Verif.Model.CellPoints
import Mathlib.Tactic.Linarith
import Mathlib.Tactic.Positivity
import Mathlib.Tactic.NormNum
import Mathlib.Algebra.Order.Field.Rat
import Mathlib.Data.List.Nodup
import Mathlib.Data.List.GetD
import Mathlib.Data.Fin.VecNotation
import Mathlib.Algebra.Order.BigOperators.Group.List

/-!
# Corners, edges and faces of a unit cell (C143)
-/

set_option linter.unusedSectionVars false

namespace Verif.Props
open Verif.Model

variable {K : Type*} [Field K] [LinearOrder K] [IsStrictOrderedRing K] {d : ℕ}

/-- The coordinates of `p` that are exactly on the box. -/
def onBox (c : CellBox K d) (p : Fin d → K) : List (Fin d) :=
  (List.finRange d).filter fun i => decide (p i = c.lb i ∨ p i = c.ub i)

/-- Each coordinate of the point is on the box, or farther from both bounds than the tolerance (absolute plus relative to the
magnitude of the bound). -/
def Separated (c : CellBox K d) (p : Fin d → K) : Prop :=
  0 ≤ c.atol ∧ 0 ≤ c.rtol ∧ ∀ i, p i = c.lb i ∨ p i = c.ub i ∨
    (c.atol + c.rtol * |c.lb i| < |p i - c.lb i| ∧ c.atol + c.rtol * |c.ub i| < |p i - c.ub i|)

theorem cellHits_eq (c : CellBox K d) (p : Fin d → K) (h : Separated c p) : c.hits p = (onBox c p).length := by
  obtain ⟨ha, hr, hs⟩ := h
  unfold CellBox.hits onBox
  congr 1
  apply List.filter_congr
  intro i _
  have hz : ∀ b : K, 0 ≤ c.atol + c.rtol * |b| := fun b => add_nonneg ha (mul_nonneg hr (abs_nonneg b))
  unfold CellBox.close
  rcases hs i with h | h | ⟨h1, h2⟩
  · simp [h, hz]
  · simp [h, hz]
  · have n1 : p i ≠ c.lb i := by
      intro e; rw [e, sub_self, abs_zero] at h1; exact absurd (hz _) (not_le.mpr h1)
    have n2 : p i ≠ c.ub i := by
      intro e; rw [e, sub_self, abs_zero] at h2; exact absurd (hz _) (not_le.mpr h2)
    simp [h1, h2, n1, n2]

/-- C143: away from the tolerances, a node is a corner iff all its coordinates are on the box, an edge node iff all but one
are, a face node iff all but two are. -/
theorem C143_classification_partial (c : CellBox K d) (p : Fin d → K) (h : Separated c p) :
    (c.isCorner p = true ↔ ∀ i, p i = c.lb i ∨ p i = c.ub i) ∧
    (c.isEdge p = true ↔ (onBox c p).length + 1 = d) ∧ (c.isFace p = true ↔ (onBox c p).length + 2 = d) := by
  have hh := cellHits_eq c p h
  have hle : (onBox c p).length ≤ d := by
    refine le_trans (List.length_filter_le _ _) ?_
    simp
  have hc : c.isCorner p = true ↔ (onBox c p).length = d := by simp [CellBox.isCorner, hh]
  refine ⟨?_, ?_, ?_⟩
  · rw [hc]
    constructor
    · intro e i
      have : onBox c p = List.finRange d := by
        refine List.Sublist.eq_of_length List.filter_sublist ?_
        simpa using e
      have hi : i ∈ onBox c p := by rw [this]; exact List.mem_finRange i
      simpa [onBox] using hi
    · intro hall
      have : onBox c p = List.finRange d := List.filter_eq_self.mpr fun i _ => by simpa using hall i
      rw [this]; simp
  · unfold CellBox.isEdge
    rw [Bool.and_eq_true, Bool.not_eq_true', ← Bool.not_eq_true, hc, hh, beq_iff_eq]
    omega
  · unfold CellBox.isFace CellBox.isEdge
    simp only [Bool.and_eq_true, Bool.not_eq_true', hc, hh,
      beq_iff_eq, ← Bool.not_eq_true]
    omega

/-- C143 in three dimensions: every node is exactly one of corner, edge node (two coordinates on the box), face node (one)
and interior node (none). -/
theorem C143_partition (c : CellBox K 3) (p : Fin 3 → K) (h : Separated c p) :
    (c.isCorner p = true ∧ c.isEdge p = false ∧ c.isFace p = false ∧ (onBox c p).length = 3) ∨
    (c.isCorner p = false ∧ c.isEdge p = true ∧ c.isFace p = false ∧ (onBox c p).length = 2) ∨
    (c.isCorner p = false ∧ c.isEdge p = false ∧ c.isFace p = true ∧ (onBox c p).length = 1) ∨
    (c.isCorner p = false ∧ c.isEdge p = false ∧ c.isFace p = false ∧ onBox c p = []) := by
  obtain ⟨_, h2, h3⟩ := C143_classification_partial c p h
  have hle : (onBox c p).length ≤ 3 := by
    refine le_trans (List.length_filter_le _ _) ?_
    simp
  have h1 : c.isCorner p = true ↔ (onBox c p).length = 3 := by simp [CellBox.isCorner, cellHits_eq c p h]
  have h4 : onBox c p = [] ↔ (onBox c p).length = 0 := List.length_eq_zero_iff.symm
  rw [h4]
  simp only [← Bool.not_eq_true, h1, h2, h3]
  omega

theorem bitLists_length (n : ℕ) : (CellBox.bitLists n).length = 2 ^ n ∧ ∀ b ∈ CellBox.bitLists n, b.length = n := by
  induction n with
  | zero => simp [CellBox.bitLists]
  | succ n ih =>
    constructor
    · simp [CellBox.bitLists, ih.1]; omega
    · intro b hb
      simp only [CellBox.bitLists, List.mem_append, List.mem_map] at hb
      rcases hb with ⟨x, hx, rfl⟩ | ⟨x, hx, rfl⟩ <;> simp [ih.2 x hx]

theorem bitLists_all (n : ℕ) (b : List Bool) (h : b.length = n) : b ∈ CellBox.bitLists n := by
  induction n generalizing b with
  | zero => simp [CellBox.bitLists, List.length_eq_zero_iff.mp h]
  | succ n ih =>
    cases b with
    | nil => simp at h
    | cons x b =>
      have := ih b (by simpa using h)
      cases x <;> simp [CellBox.bitLists, this]

/-- C143: `corners` lists `2 ^ d` points: all those whose coordinates are bounds, and no others. -/
theorem C143_corners (c : CellBox K d) :
    c.corners.length = 2 ^ d ∧ ∀ p, p ∈ c.corners ↔ ∀ i, p i = c.lb i ∨ p i = c.ub i := by
  refine ⟨by simp [CellBox.corners, bitLists_length], fun p => ⟨?_, ?_⟩⟩
  · intro hp i
    simp only [CellBox.corners, List.mem_map] at hp
    obtain ⟨b, _, rfl⟩ := hp
    by_cases hb : b.getD i false = true
    · exact .inr (by simp only [hb]; rfl)
    · exact .inl (by simp only [hb]; rfl)
  · intro h
    simp only [CellBox.corners, List.mem_map]
    refine ⟨(List.finRange d).map fun i => decide (p i ≠ c.lb i), bitLists_all d _ (by simp), ?_⟩
    funext i
    have : ((List.finRange d).map fun i => decide (p i ≠ c.lb i)).getD i false = decide (p i ≠ c.lb i) := by
      rw [List.getD_eq_getElem _ _ (by simp)]
      simp
    rw [this]
    by_cases hp : p i = c.lb i
    · simp [hp]
    · simp only [hp, ne_eq, not_false_eq_true, decide_true, if_true]
      exact ((h i).resolve_left hp).symm

theorem sum_bounds (l : List K) (a b : K) (h : ∀ x ∈ l, a ≤ x ∧ x ≤ b) :
    (l.length : K) * a ≤ l.sum ∧ l.sum ≤ (l.length : K) * b := by
  induction l with
  | nil => simp
  | cons x l ih =>
    have h1 := h x (by simp)
    have h2 := ih fun y hy => h y (by simp [hy])
    simp only [List.length_cons, Nat.cast_add, Nat.cast_one, List.sum_cons]
    constructor <;> linarith [h1.1, h1.2, h2.1, h2.2]

/-- C143: the centre of a cell lies in the bounding box. -/
theorem C143_centers_inside (c : CellBox K d) (pts : List (Fin d → K)) (hne : pts ≠ [])
    (hin : ∀ p ∈ pts, ∀ i, c.lb i ≤ p i ∧ p i ≤ c.ub i) (i : Fin d) :
    c.lb i ≤ cellCenter pts i ∧ cellCenter pts i ≤ c.ub i := by
  have hb := sum_bounds (pts.map (· i)) (c.lb i) (c.ub i) (by
    intro x hx
    obtain ⟨p, hp, rfl⟩ := List.mem_map.mp hx
    exact hin p hp i)
  rw [List.length_map] at hb
  have hpos : (0 : K) < (pts.length : K) := by
    exact_mod_cast List.length_pos_iff.mpr hne
  unfold cellCenter
  constructor
  · rw [le_div_iff₀ hpos]; linarith [hb.1, mul_comm (c.lb i) (pts.length : K)]
  · rw [div_le_iff₀ hpos]; linarith [hb.2, mul_comm (c.ub i) (pts.length : K)]

/-- C143 fails for cells that are small compared with the tolerance: then every node, the interior ones included, is a
corner. -/
theorem C143_everything_is_a_corner (c : CellBox K d) (hw : ∀ i, c.ub i - c.lb i ≤ c.atol + c.rtol * |c.lb i|)
    (p : Fin d → K) (hp : ∀ i, c.lb i ≤ p i ∧ p i ≤ c.ub i) : c.isCorner p = true := by
  unfold CellBox.isCorner CellBox.hits
  rw [List.filter_eq_self.mpr]
  · simp
  · intro i _
    unfold CellBox.close
    rw [Bool.or_eq_true]
    left
    rw [decide_eq_true_eq, abs_of_nonneg (by linarith [(hp i).1])]
    linarith [hw i, (hp i).2]

/-- The unit cube at the origin with the default tolerances. -/
def unitBox : CellBox ℚ 3 := ⟨fun _ => 0, fun _ => 1, 1 / 10 ^ 6, 1 / 10 ^ 5⟩

/-- The same cube a hundred thousand side lengths from the origin. -/
def farBox : CellBox ℚ 3 := ⟨fun _ => 100000, fun _ => 100001, 1 / 10 ^ 6, 1 / 10 ^ 5⟩

/-- A cube with a side of a micrometre, in metres. -/
def microBox : CellBox ℚ 3 := ⟨fun _ => 0, fun _ => 1 / 10 ^ 6, 1 / 10 ^ 6, 1 / 10 ^ 5⟩

theorem unitBox_face_separated : Separated unitBox ![1 / 2, 1 / 2, 0] := by
  refine ⟨by decide +kernel, by decide +kernel, ?_⟩
  intro i
  rcases (by revert i; decide : i = 0 ∨ i = 1 ∨ i = 2) with rfl | rfl | rfl
  · exact .inr (.inr (by decide +kernel))
  · exact .inr (.inr (by decide +kernel))
  · exact .inl (by decide +kernel)

example := C143_partition unitBox _ unitBox_face_separated
example : unitBox.isFace ![1 / 2, 1 / 2, 0] = true := by decide +kernel
example : unitBox.isEdge ![1 / 2, 1, 0] = true := by decide +kernel
example : unitBox.isCorner ![1, 1, 0] = true := by decide +kernel
example : unitBox.corners.length = 8 := (C143_corners unitBox).1
example := C143_centers_inside unitBox [![0, 0, 0], ![1, 0, 0], ![0, 1, 0], ![0, 0, 1]] (by simp) (by decide +kernel)

/-- The centre of the cube far from the origin, and that of the micrometre cube, are corners. -/
theorem C143_center_is_a_corner :
    farBox.isCorner ![100000 + 1 / 2, 100000 + 1 / 2, 100000 + 1 / 2] = true ∧
      microBox.isCorner ![1 / 2000000, 1 / 2000000, 1 / 2000000] = true := by
  constructor
  · exact C143_everything_is_a_corner farBox (fun _ => by norm_num [farBox]) _ (by decide +kernel)
  · exact C143_everything_is_a_corner microBox (fun _ => by norm_num [microBox]) _ (by decide +kernel)

end Verif.Props
