import Verif.Model.Adaptive
import Verif.Lemmas.Arr
import Verif.Props.Batched
import Verif.Props.Filters
import Mathlib.Tactic.FieldSimp
import Mathlib.Tactic.Ring
import Mathlib.Tactic.Linarith
import Mathlib.Tactic.LinearCombination
import Mathlib.Tactic.NormNum
import Mathlib.Algebra.Order.Ring.Rat
import Mathlib.Data.List.Perm.Subperm

/-!
# Field transfer and adaptive remeshing: C55, C73, C74, C75
-/

namespace Verif.Props
open Verif.Model Verif.Lemmas

section Linear
variable {K : Type} [Field K] [DecidableEq K]

/-- `inv3` is a two-sided inverse; it raises exactly for singular matrices. -/
theorem inv3_ok {m i : M3 K} (h : inv3 m = .ok i) (v : P3 K) :
    det3x3 m ≠ 0 ∧ mulVec3 i (mulVec3 m v) = v ∧ mulVec3 m (mulVec3 i v) = v := by
  unfold inv3 at h
  by_cases hd : det3x3 m = 0
  · simp [hd] at h
  · simp only [hd, if_false, Except.ok.injEq] at h
    refine ⟨hd, ?_⟩
    obtain ⟨⟨a, b, c⟩, ⟨d, e, f⟩, ⟨g, k, l⟩⟩ := m
    obtain ⟨x, y, z⟩ := v
    subst h
    simp only [mulVec3, dot3, Prod.mk.injEq]
    generalize hD : det3x3 ((a, b, c), (d, e, f), (g, k, l)) = D at hd ⊢
    simp only [det3x3] at hD
    refine ⟨⟨?_, ?_, ?_⟩, ⟨?_, ?_, ?_⟩⟩ <;> field_simp <;> rw [← hD] <;> ring

theorem inv3_isOk {m : M3 K} (h : det3x3 m ≠ 0) : ∃ i, inv3 m = .ok i := by
  unfold inv3
  simp [h]

end Linear

section Ordered
variable {K : Type} [Field K] [LinearOrder K] [IsStrictOrderedRing K]

/-! ## Specification -/

/-- The value of the field at vertex `a` of element `e`. -/
def nodal (m : TetMesh K) (f : List K) (e a : ℕ) : K := f.getD ((m.cells.getD e []).getD a 0) 0

/-- `g` is the gradient of the linear interpolant of the field on element `e`: the affine function with slope `g`
through the value at one vertex takes the nodal values at all four. -/
def InterpolantGradient (m : TetMesh K) (f : List K) (e : ℕ) (g : P3 K) : Prop :=
  ∃ c, ∀ a < 4, c + dot3 g (m.vertex e a) = nodal m f e a

/-- `p` lies in the closed tetrahedron `e`. -/
def InTet (m : TetMesh K) (e : ℕ) (p : P3 K) : Prop :=
  ∃ w0 w1 w2 w3 : K, 0 ≤ w0 ∧ 0 ≤ w1 ∧ 0 ≤ w2 ∧ 0 ≤ w3 ∧ w0 + w1 + w2 + w3 = 1 ∧
    p.1 = w0 * (m.vertex e 0).1 + w1 * (m.vertex e 1).1 + w2 * (m.vertex e 2).1 + w3 * (m.vertex e 3).1 ∧
    p.2.1 = w0 * (m.vertex e 0).2.1 + w1 * (m.vertex e 1).2.1 + w2 * (m.vertex e 2).2.1 + w3 * (m.vertex e 3).2.1 ∧
    p.2.2 = w0 * (m.vertex e 0).2.2 + w1 * (m.vertex e 1).2.2 + w2 * (m.vertex e 2).2.2 + w3 * (m.vertex e 3).2.2

/-- The field samples the affine function `c + g · x` at every node of the mesh. -/
def SamplesAffine (m : TetMesh K) (f : List K) (c : K) (g : P3 K) : Prop :=
  ∀ n < m.points.length, f.getD n 0 = c + dot3 g (m.points.getD n (0, 0, 0))

/-- Connectivity of a TET4 mesh. -/
def TetMeshOk (m : TetMesh K) : Prop := ∀ c ∈ m.cells, c.length = 4 ∧ ∀ n ∈ c, n < m.points.length

/-! ## C55 -/

theorem tet_node {m : TetMesh K} (hm : TetMeshOk m) {e : ℕ} (he : e < m.cells.length) {a : ℕ} (ha : a < 4) :
    (m.cells.getD e []).getD a 0 < m.points.length := by
  have hc : m.cells.getD e [] ∈ m.cells := by
    rw [List.getD_eq_getElem _ _ he]; exact List.getElem_mem he
  obtain ⟨h4, hn⟩ := hm _ hc
  apply hn
  generalize m.cells.getD e [] = c at h4
  rw [List.getD_eq_getElem _ _ (by omega)]
  exact List.getElem_mem _

/-- **C55, the part that holds.** In an element whose edge matrix is symmetric (for instance a corner tetrahedron with
edges along the axes) the element gradient is the gradient of the linear interpolant. Missing: every other element; see
`C55_gradient_transposed`. -/
theorem C55_gradient_partial (m : TetMesh K) (f : List K) (e : ℕ) (hd : det3x3 (m.edges e) ≠ 0)
    (hs : transpose3 (m.edges e) = m.edges e) :
    ∃ g, elementGradient m f e = .ok g ∧ InterpolantGradient m f e g := by
  obtain ⟨i, hi⟩ := inv3_isOk hd
  have hsi : transpose3 i = i := by
    have h2 := hi
    rw [inv3] at h2
    simp only [hd, if_false, Except.ok.injEq] at h2
    generalize m.edges e = J at hs h2
    obtain ⟨⟨a, b, c⟩, ⟨d, e, f⟩, ⟨g, k, l⟩⟩ := J
    simp only [transpose3, Prod.mk.injEq] at hs
    obtain ⟨⟨-, h1, h3⟩, ⟨-, -, h4⟩, -⟩ := hs
    subst h1 h3 h4
    rw [← h2]
    simp only [transpose3, Prod.mk.injEq, true_and, and_true]
    refine ⟨⟨?_, ?_⟩, ⟨?_, ?_⟩, ?_, ?_⟩ <;> ring
  refine ⟨mulVec3 i (fieldDiffs m f e), ?_, ?_⟩
  · simp only [elementGradient, hi, bind, Except.bind, pure, Except.pure, hsi]
  · have h := (inv3_ok hi (fieldDiffs m f e)).2.2
    generalize mulVec3 i (fieldDiffs m f e) = g at h
    simp only [mulVec3, TetMesh.edges, fieldDiffs, Prod.mk.injEq] at h
    obtain ⟨h1, h2, h3⟩ := h
    refine ⟨nodal m f e 0 - dot3 g (m.vertex e 0), ?_⟩
    intro a ha
    simp only [dot3, sub3] at h1 h2 h3 ⊢
    have : a = 0 ∨ a = 1 ∨ a = 2 ∨ a = 3 := by omega
    rcases this with rfl | rfl | rfl | rfl
    · ring
    · unfold nodal; linear_combination h1
    · unfold nodal; linear_combination h2
    · unfold nodal; linear_combination h3

/-- A linear field, `x`, on one sheared element: the gradient should be `(1, 0, 0)`, the code computes `(-3, 2, 0)`. -/
theorem C55_gradient_transposed :
    let m : TetMesh ℚ := ⟨[(0, 0, 0), (1, 0, 0), (2, 1, 0), (0, 0, 1)], [[0, 1, 2, 3]]⟩
    SamplesAffine m [0, 1, 2, 0] 0 (1, 0, 0) ∧ InterpolantGradient m [0, 1, 2, 0] 0 (1, 0, 0) ∧
      elementGradient m [0, 1, 2, 0] 0 = .ok (-3, 2, 0) ∧ ¬ InterpolantGradient m [0, 1, 2, 0] 0 (-3, 2, 0) := by
  refine ⟨?_, ⟨0, ?_⟩, by decide +kernel, ?_⟩
  · intro n hn
    have : ∀ n < 4, ([0, 1, 2, 0] : List ℚ).getD n 0 = 0 + dot3 (1, 0, 0) (([(0, 0, 0), (1, 0, 0), (2, 1, 0), (0, 0, 1)] : List (P3 ℚ)).getD n (0, 0, 0)) := by
      decide +kernel
    exact this n hn
  · decide +kernel
  · rintro ⟨c, h⟩
    have h0 := h 0 (by omega)
    have h1 := h 1 (by omega)
    simp [nodal, dot3, TetMesh.vertex] at h0 h1
    rw [h0] at h1
    norm_num at h1

/-- Sum over the four corners of an element with distinct nodes. -/
theorem corner_sum {R : Type} [AddCommMonoid R] (c : List ℕ) (h4 : c.length = 4) (hn : c.Nodup) (n : ℕ) (x : R) :
    (if c.getD 0 0 = n then x else 0) + (if c.getD 1 0 = n then x else 0) + (if c.getD 2 0 = n then x else 0)
      + (if c.getD 3 0 = n then x else 0) = if n ∈ c then x else 0 := by
  match c, h4 with
  | [p, q, r, t], _ =>
    simp only [List.nodup_cons, List.mem_cons, List.not_mem_nil, or_false, not_or] at hn
    obtain ⟨⟨h1, h2, h3⟩, ⟨h4, h5⟩, h6, -⟩ := hn
    simp only [List.getD_cons_zero, List.getD_cons_succ, List.mem_cons, List.not_mem_nil, or_false]
    by_cases a : p = n
    · subst a; simp [Ne.symm h1, Ne.symm h2, Ne.symm h3]
    · by_cases b : q = n
      · subst b; simp [a, Ne.symm a, Ne.symm h4, Ne.symm h5]
      · by_cases d : r = n
        · subst d; simp [a, b, Ne.symm h6]
        · by_cases f : t = n
          · subst f; simp [a, b, d]
          · simp [a, b, d, f, Ne.symm a, Ne.symm b, Ne.symm d, Ne.symm f]

theorem zip_as_range {A B : Type} (dA : A) (dB : B) (l : List A) (r : List B) (h : r.length = l.length) :
    l.zip r = (List.range l.length).map fun k => (l.getD k dA, r.getD k dB) := by
  apply List.ext_getElem
  · simp [h]
  · intro k h1 h2
    simp only [List.length_zip, h, min_self] at h1
    simp [h1, h]

theorem segSum_corners {R : Type} [AddCommMonoid R] (cells : List (List ℕ)) (vals : List R)
    (hl : vals.length = cells.length) (hc : ∀ c ∈ cells, c.length = 4 ∧ c.Nodup) (n : ℕ) :
    segSumAt (((List.range 4).flatMap fun a => cells.map fun c => c.getD a 0).zip ((List.range 4).flatMap fun _ => vals)) n
      = ((List.range cells.length).map fun e => if n ∈ cells.getD e [] then vals.getD e 0 else 0).sum := by
  have hr : List.range 4 = [0, 1, 2, 3] := rfl
  simp only [hr, List.flatMap_cons, List.flatMap_nil, List.append_nil]
  rw [List.zip_append (by simp [hl]), List.zip_append (by simp [hl]), List.zip_append (by simp [hl])]
  rw [segSumAt_append, segSumAt_append, segSumAt_append]
  simp only [segSumAt_eq_sum]
  have hz : ∀ a : ℕ, ((cells.map fun c => c.getD a 0).zip vals).map (fun p => if p.1 = n then p.2 else 0)
      = (List.range cells.length).map fun e => if (cells.getD e []).getD a 0 = n then vals.getD e 0 else 0 := by
    intro a
    rw [zip_as_range 0 0 _ _ (by simpa using hl), List.map_map, List.length_map]
    apply List.map_congr_left
    intro e he
    simp only [List.mem_range] at he
    simp [he, hl]
  rw [hz 0, hz 1, hz 2, hz 3, ← add_assoc, ← add_assoc, ← List.sum_map_add, ← List.sum_map_add, ← List.sum_map_add]
  congr 1
  apply List.map_congr_left
  intro e he
  simp only [List.mem_range] at he
  have hm : cells.getD e [] ∈ cells := by
    rw [List.getD_eq_getElem _ _ he]; exact List.getElem_mem he
  exact corner_sum _ (hc _ hm).1 (hc _ hm).2 n _

/-- **C55, averaging.** The nodal value is the mean of the element magnitudes over the elements around the node (zero at
a node of no element). -/
theorem C55_node_average (numNodes : ℕ) (cells : List (List ℕ)) (mag : List K) (hl : mag.length = cells.length)
    (hc : ∀ c ∈ cells, c.length = 4 ∧ c.Nodup) (n : ℕ) (hn : n < numNodes) :
    let around := (List.range cells.length).filter fun e => n ∈ cells.getD e []
    (nodeAverage numNodes cells mag).getD n 0
      = (around.map fun e => mag.getD e 0).sum / (if around = [] then 1 else (around.length : K)) := by
  intro around
  have h1 : (around.map fun e => mag.getD e 0).sum
      = ((List.range cells.length).map fun e => if n ∈ cells.getD e [] then mag.getD e 0 else 0).sum := by
    rw [sum_filter_map]; simp
  have h2 : (around.length : K) = ((List.range cells.length).map fun e => if n ∈ cells.getD e [] then (1 : K) else 0).sum := by
    have := sum_filter_map (K := K) (List.range cells.length) (fun e => n ∈ cells.getD e []) fun _ => 1
    simpa [around] using this
  have h3 : (((List.range 4).flatMap fun a => cells.map fun c => c.getD a 0).map fun _ => (1 : K))
      = (List.range 4).flatMap fun _ => cells.map fun _ => (1 : K) := by
    simp [List.map_flatMap, List.flatMap_map, Function.comp_def]
  have h4 := segSum_corners cells mag hl hc n
  have h5 := segSum_corners cells (cells.map fun _ => (1 : K)) (by simp) hc n
  have h6 : ((List.range cells.length).map fun e => if n ∈ cells.getD e [] then (cells.map fun _ => (1 : K)).getD e 0 else 0)
      = (List.range cells.length).map fun e => if n ∈ cells.getD e [] then (1 : K) else 0 := by
    apply List.map_congr_left
    intro e he
    simp only [List.mem_range] at he
    simp [he]
  rw [h6, ← h2] at h5
  rw [← h1] at h4
  unfold nodeAverage
  simp only [h3]
  rw [List.getD_eq_getElem _ _ (by simp [hn])]
  simp only [List.getElem_zipWith]
  rw [← List.getD_eq_getElem _ (0 : K), ← List.getD_eq_getElem _ (0 : K), segmentSum_getD _ _ _ _ hn, segmentSum_getD _ _ _ _ hn, h4, h5]
  by_cases he : around = []
  · simp [he]
  · have : (1 : K) ≤ around.length := by
      have : 1 ≤ around.length := List.length_pos_iff.mpr he
      exact_mod_cast this
    simp [he, max_eq_left this]

theorem nodeAverage_nonneg (numNodes : ℕ) (cells : List (List ℕ)) (mag : List K) (hm : ∀ x ∈ mag, 0 ≤ x) :
    ∀ x ∈ nodeAverage numNodes cells mag, 0 ≤ x := by
  intro x hx
  unfold nodeAverage at hx
  obtain ⟨k, hk, rfl⟩ := List.getElem_of_mem hx
  simp only [List.getElem_zipWith]
  apply div_nonneg
  · simp only [segmentSum, List.getElem_map, segSumAt]
    apply List.sum_nonneg
    intro y hy
    simp only [List.mem_map, List.mem_filter] at hy
    obtain ⟨⟨i, z⟩, ⟨hz, -⟩, rfl⟩ := hy
    have := (List.of_mem_zip hz).2
    simp only [List.mem_flatMap] at this
    obtain ⟨-, -, h⟩ := this
    exact hm _ h
  · exact le_trans zero_le_one (le_max_right _ _)

theorem foldl_max_spec (l : List K) (a : K) :
    (∀ x ∈ a :: l, x ≤ l.foldl max a) ∧ l.foldl max a ∈ a :: l := by
  induction l generalizing a with
  | nil => simp
  | cons b l ih =>
    obtain ⟨h1, h2⟩ := ih (max a b)
    rw [List.foldl_cons]
    constructor
    · intro x hx
      have hm := h1 (max a b) (by simp)
      simp only [List.mem_cons] at hx
      rcases hx with rfl | rfl | hx
      · exact le_trans (le_max_left _ _) hm
      · exact le_trans (le_max_right _ _) hm
      · exact h1 x (by simp [hx])
    · simp only [List.mem_cons] at h2 ⊢
      rcases h2 with h | h
      · rw [h]
        rcases max_choice a b with h | h <;> simp [h]
      · exact .inr (.inr h)

theorem foldl_min_spec (l : List K) (a : K) :
    (∀ x ∈ a :: l, l.foldl min a ≤ x) ∧ l.foldl min a ∈ a :: l := by
  induction l generalizing a with
  | nil => simp
  | cons b l ih =>
    obtain ⟨h1, h2⟩ := ih (min a b)
    rw [List.foldl_cons]
    constructor
    · intro x hx
      have hm := h1 (min a b) (by simp)
      simp only [List.mem_cons] at hx
      rcases hx with rfl | rfl | hx
      · exact le_trans hm (min_le_left _ _)
      · exact le_trans hm (min_le_right _ _)
      · exact h1 x (by simp [hx])
    · simp only [List.mem_cons] at h2 ⊢
      rcases h2 with h | h
      · rw [h]
        rcases min_choice a b with h | h <;> simp [h]
      · exact .inr (.inr h)

/-- **C55, range.** Whatever the field, the refinement field has one value per node, all in `[0, 1]`, and the value 1 is
attained unless every value is below the threshold. -/
theorem C55_range (norm : P3 K → K) (hnorm : ∀ v, 0 ≤ norm v) (small : K) (hs : 0 < small) (hs1 : small ≤ 1) (f : List K)
    (m : TetMesh K) (out : List K) (h : gradientRefinement norm small f m = .ok out) :
    out.length = m.points.length ∧ (∀ x ∈ out, 0 ≤ x ∧ x ≤ 1) ∧ ((∀ x ∈ out, x ≤ small) ∨ 1 ∈ out) := by
  unfold gradientRefinement at h
  split at h
  · exact absurd h (by simp [bind, Except.bind, throw, throwThe, MonadExceptOf.throw])
  · simp only [bind, Except.bind, pure, Except.pure] at h
    split at h
    · simp at h
    · rename_i grads hg
      have hnn := nodeAverage_nonneg m.points.length m.cells (grads.map norm) (by
        intro x hx
        obtain ⟨v, -, rfl⟩ := List.mem_map.mp hx
        exact hnorm v)
      have hlen : (nodeAverage m.points.length m.cells (grads.map norm)).length = m.points.length := by simp [nodeAverage]
      generalize nodeAverage m.points.length m.cells (grads.map norm) = avg at hnn hlen h
      match avg with
      | [] => simp [throw, throwThe, MonadExceptOf.throw] at h
      | a :: as =>
        simp only [Except.ok.injEq] at h
        obtain ⟨hmax, hmem⟩ := foldl_max_spec as a
        by_cases hg : small < as.foldl max a
        · have hp : 0 < as.foldl max a := lt_trans hs hg
          rw [if_pos hg] at h
          subst h
          refine ⟨by simpa using hlen, ?_, .inr ?_⟩
          · intro x hx
            obtain ⟨y, hy, rfl⟩ := List.mem_map.mp hx
            exact ⟨div_nonneg (hnn y hy) hp.le, (div_le_one hp).mpr (hmax y hy)⟩
          · exact List.mem_map.mpr ⟨_, hmem, div_self hp.ne'⟩
        · rw [if_neg hg] at h
          subst h
          have hx : ∀ x ∈ a :: as, x ≤ small := fun x hx => le_trans (hmax x hx) (not_lt.mp hg)
          exact ⟨hlen, fun x hxm => ⟨hnn x hxm, le_trans (hx x hxm) hs1⟩, .inl hx⟩

/-- **C55, constant fields.** A constant field has refinement zero everywhere. -/
theorem C55_constant (m : TetMesh K) (hm : TetMeshOk m) (c : K) (e : ℕ) (he : e < m.cells.length) (g : P3 K)
    (h : elementGradient m (List.replicate m.points.length c) e = .ok g) : g = (0, 0, 0) := by
  have hd : fieldDiffs m (List.replicate m.points.length c) e = (0, 0, 0) := by
    have hv : ∀ a < 4, (List.replicate m.points.length c).getD ((m.cells.getD e []).getD a 0) 0 = c := by
      intro a ha
      have := tet_node hm he ha
      rw [List.getD_eq_getElem _ _ (by simpa using this)]
      simp
    simp only [fieldDiffs]
    rw [hv 0 (by omega), hv 1 (by omega), hv 2 (by omega), hv 3 (by omega)]
    simp
  unfold elementGradient at h
  simp only [bind, Except.bind, pure, Except.pure] at h
  split at h
  · simp at h
  · simp only [Except.ok.injEq] at h
    rw [← h, hd]
    simp [mulVec3, dot3]

/-- The hypotheses of `C55_gradient_partial` and of the other C55 theorems hold on a corner element. -/
example : ∃ g, elementGradient (⟨[(0, 0, 0), (2, 0, 0), (0, 3, 0), (0, 0, 5)], [[0, 1, 2, 3]]⟩ : TetMesh ℚ) [1, 3, 4, 1] 0 = .ok g ∧
    InterpolantGradient ⟨[(0, 0, 0), (2, 0, 0), (0, 3, 0), (0, 0, 5)], [[0, 1, 2, 3]]⟩ [1, 3, 4, 1] 0 g :=
  C55_gradient_partial _ _ _ (by decide +kernel) (by decide +kernel)

example : (gradientRefinement (fun v => |v.1| + |v.2.1| + |v.2.2|) (1 / 1000) [1, 3, 4, 1, 7]
    (⟨[(0, 0, 0), (2, 0, 0), (0, 3, 0), (0, 0, 5), (2, 3, 5)], [[0, 1, 2, 3], [1, 2, 3, 4]]⟩ : TetMesh ℚ)).toOption.isSome := by
  decide +kernel

/-! ## C73 -/

/-- The value of a candidate that contains the point is the value of the affine function. -/
theorem candidate_affine (tol : K) (m : TetMesh K) (hm : TetMeshOk m) (inv : List (M3 K)) (values : List K) (c : K) (g : P3 K)
    (hv : SamplesAffine m values c g) (p : P3 K) (e : ℕ) (he : e < m.cells.length) (d : M3 K)
    (hi : inv3 (transpose3 (m.edges e)) = .ok (inv.getD e ((0, 0, 0), (0, 0, 0), (0, 0, 0)))) (x : K)
    (hx : candidateValue m inv tol values p e = some x) : x = c + dot3 g p := by
  simp only [candidateValue] at hx
  split at hx
  · simp only [Option.some.injEq] at hx
    have h := (inv3_ok hi (sub3 p (m.vertex e 0))).2.2
    generalize mulVec3 (inv.getD e ((0, 0, 0), (0, 0, 0), (0, 0, 0))) (sub3 p (m.vertex e 0)) = lam at h hx
    have hvv : ∀ a < 4, values.getD ((m.cells.getD e []).getD a 0) 0 = c + dot3 g (m.vertex e a) := fun a ha =>
      hv _ (tet_node hm he ha)
    rw [hvv 0 (by omega), hvv 1 (by omega), hvv 2 (by omega), hvv 3 (by omega)] at hx
    simp only [mulVec3, transpose3, TetMesh.edges, sub3, dot3, Prod.mk.injEq] at h hx ⊢
    obtain ⟨h1, h2, h3⟩ := h
    rw [← hx]
    linear_combination g.1 * h1 + g.2.1 * h2 + g.2.2 * h3
  · simp at hx

/-- A point of the closed tetrahedron passes the containment test. -/
theorem candidate_inside (tol : K) (ht : 0 ≤ tol) (m : TetMesh K) (inv : List (M3 K)) (values : List K) (p : P3 K) (e : ℕ)
    (hi : inv3 (transpose3 (m.edges e)) = .ok (inv.getD e ((0, 0, 0), (0, 0, 0), (0, 0, 0)))) (hp : InTet m e p) :
    (candidateValue m inv tol values p e).isSome := by
  obtain ⟨w0, w1, w2, w3, h0, h1, h2, h3, hs, hx, hy, hz⟩ := hp
  have hw : sub3 p (m.vertex e 0) = mulVec3 (transpose3 (m.edges e)) (w1, w2, w3) := by
    simp only [mulVec3, transpose3, TetMesh.edges, sub3, dot3, Prod.mk.injEq]
    have hw0 : w0 = 1 - w1 - w2 - w3 := by linear_combination hs
    rw [hx, hy, hz, hw0]
    refine ⟨?_, ?_, ?_⟩ <;> ring
  have hl := (inv3_ok hi (w1, w2, w3)).2.1
  unfold candidateValue
  rw [hw, hl]
  rw [if_pos]
  · rfl
  · refine ⟨?_, ?_, ?_, ?_⟩
    · have : 1 - (w1 + w2 + w3) = w0 := by linear_combination -hs
      simp only [this]
      linarith
    all_goals simp only []; linarith

theorem inverses_ok {m : TetMesh K} {inv : List (M3 K)} (h : inverses m = .ok inv) (e : ℕ) (he : e < m.cells.length) :
    inv3 (transpose3 (m.edges e)) = .ok (inv.getD e ((0, 0, 0), (0, 0, 0), (0, 0, 0))) := by
  have := (mapM_getD _ 0 ((0, 0, 0), (0, 0, 0), (0, 0, 0)) _ _ h).2 e (by simpa using he)
  simpa [he] using this

theorem interp_unfold {tol : K} {candidates : P3 K → List ℕ} {nearest : P3 K → ℕ} {values : List K} {m : TetMesh K}
    {new : List (P3 K)} {clip : Option (K × K)} {out : List K}
    (h : interpolateField tol candidates nearest values m new clip = .ok out) :
    ∃ inv, inverses m = .ok inv ∧ out = new.map fun p =>
      clipTo clip (((candidates p).findSome? (candidateValue m inv tol values p)).getD (values.getD (nearest p) 0)) := by
  unfold interpolateField at h
  split at h
  · exact absurd h (by simp [bind, Except.bind, throw, throwThe, MonadExceptOf.throw])
  · simp only [bind, Except.bind, pure, Except.pure] at h
    split at h
    · simp at h
    · rename_i inv hinv
      exact ⟨inv, hinv, by simpa using h.symm⟩

/-- **C73, the part that holds.** A linear field is transferred exactly to every query point that lies in one of the
elements tried for it. Missing: a point whose element is not among the eight with the nearest centroids, see
`C73_containing_element_missed`. -/
theorem C73_linear_partial (tol : K) (ht : 0 ≤ tol) (candidates : P3 K → List ℕ) (nearest : P3 K → ℕ) (values : List K)
    (m : TetMesh K) (hm : TetMeshOk m) (new : List (P3 K)) (out : List K)
    (hcand : ∀ p ∈ new, ∀ e ∈ candidates p, e < m.cells.length)
    (h : interpolateField tol candidates nearest values m new none = .ok out) (c : K) (g : P3 K)
    (hv : SamplesAffine m values c g) (k : ℕ) (hk : k < new.length)
    (hin : ∃ e ∈ candidates (new.getD k (0, 0, 0)), InTet m e (new.getD k (0, 0, 0))) :
    out.getD k 0 = c + dot3 g (new.getD k (0, 0, 0)) := by
  obtain ⟨inv, hinv, rfl⟩ := interp_unfold h
  rw [List.getD_eq_getElem _ _ (by simpa using hk), List.getElem_map]
  rw [List.getD_eq_getElem _ _ hk] at hin ⊢
  generalize hp : new[k] = p at hin
  have hpn : p ∈ new := hp ▸ List.getElem_mem hk
  obtain ⟨e, he, hpe⟩ := hin
  have hs := candidate_inside tol ht m inv values p e (inverses_ok hinv e (hcand p hpn e he)) hpe
  obtain ⟨x, hx⟩ : ∃ x, (candidates p).findSome? (candidateValue m inv tol values p) = some x := by
    cases hf : (candidates p).findSome? (candidateValue m inv tol values p) with
    | some x => exact ⟨x, rfl⟩
    | none =>
      rw [List.findSome?_eq_none_iff] at hf
      rw [hf e he] at hs
      simp at hs
  rw [hx]
  obtain ⟨e', he', hx'⟩ := List.exists_of_findSome?_eq_some hx
  simp only [clipTo, Option.getD_some]
  exact candidate_affine tol m hm inv values c g hv p e' (hcand p hpn e' he') ((0, 0, 0), (0, 0, 0), (0, 0, 0))
    (inverses_ok hinv e' (hcand p hpn e' he')) x hx'

/-- With at most eight elements all elements are candidates, so every point of the mesh is interpolated. -/
theorem C73_linear_small_mesh (tol : K) (ht : 0 ≤ tol) (candidates : P3 K → List ℕ) (nearest : P3 K → ℕ) (values : List K)
    (m : TetMesh K) (hm : TetMeshOk m) (h8 : m.cells.length ≤ 8) (new : List (P3 K)) (out : List K)
    (hcand : ∀ p, (candidates p).length = min 8 m.cells.length ∧ (candidates p).Nodup ∧ ∀ e ∈ candidates p, e < m.cells.length)
    (h : interpolateField tol candidates nearest values m new none = .ok out) (c : K) (g : P3 K)
    (hv : SamplesAffine m values c g) (k : ℕ) (hk : k < new.length)
    (hin : ∃ e < m.cells.length, InTet m e (new.getD k (0, 0, 0))) :
    out.getD k 0 = c + dot3 g (new.getD k (0, 0, 0)) := by
  refine C73_linear_partial tol ht candidates nearest values m hm new out (fun p _ => (hcand p).2.2) h c g hv k hk ?_
  obtain ⟨e, he, hp⟩ := hin
  refine ⟨e, ?_, hp⟩
  obtain ⟨hl, hn, hlt⟩ := hcand (new.getD k (0, 0, 0))
  have hsub : (candidates (new.getD k (0, 0, 0))).Subperm (List.range m.cells.length) :=
    List.subperm_of_subset hn fun x hx => List.mem_range.mpr (hlt x hx)
  have hperm := hsub.perm_of_length_le (by rw [hl, List.length_range]; omega)
  exact hperm.mem_iff.mpr (List.mem_range.mpr he)

/-- **C73, bounds.** Every transferred value stays within the range of the old values up to four times the containment
tolerance times that range, wherever the query point is; with `clip` it is within the clip interval. -/
theorem C73_bounds (tol : K) (ht : 0 ≤ tol) (candidates : P3 K → List ℕ) (nearest : P3 K → ℕ) (values : List K)
    (m : TetMesh K) (hm : TetMeshOk m) (hl : values.length = m.points.length) (new : List (P3 K)) (out : List K)
    (hcand : ∀ p ∈ new, ∀ e ∈ candidates p, e < m.cells.length) (hnear : ∀ p ∈ new, nearest p < m.points.length)
    (h : interpolateField tol candidates nearest values m new none = .ok out) (lo hi : K)
    (hv : ∀ v ∈ values, lo ≤ v ∧ v ≤ hi) :
    out.length = new.length ∧ ∀ x ∈ out, lo - 4 * tol * (hi - lo) ≤ x ∧ x ≤ hi + 4 * tol * (hi - lo) := by
  obtain ⟨inv, hinv, rfl⟩ := interp_unfold h
  refine ⟨by simp, ?_⟩
  intro x hx
  obtain ⟨p, hp, rfl⟩ := List.mem_map.mp hx
  have hval : ∀ n < m.points.length, lo ≤ values.getD n 0 ∧ values.getD n 0 ≤ hi := by
    intro n hn
    rw [List.getD_eq_getElem _ _ (by omega)]
    exact hv _ (List.getElem_mem _)
  simp only [clipTo]
  cases hf : (candidates p).findSome? (candidateValue m inv tol values p) with
  | none =>
    have hb := hval _ (hnear p hp)
    have hr : 0 ≤ 4 * tol * (hi - lo) := mul_nonneg (mul_nonneg (by norm_num) ht) (by linarith [hb.1, hb.2])
    simp only [Option.getD_none]
    constructor <;> linarith [hb.1, hb.2]
  | some x =>
    obtain ⟨e, he, hxe⟩ := List.exists_of_findSome?_eq_some hf
    have hec := hcand p hp e he
    simp only [Option.getD_some]
    simp only [candidateValue] at hxe
    split at hxe
    · rename_i hin
      simp only [Option.some.injEq] at hxe
      obtain ⟨a0, a1, a2, a3⟩ := hin
      have b0 := hval _ (tet_node hm hec (a := 0) (by omega))
      have b1 := hval _ (tet_node hm hec (a := 1) (by omega))
      have b2 := hval _ (tet_node hm hec (a := 2) (by omega))
      have b3 := hval _ (tet_node hm hec (a := 3) (by omega))
      generalize mulVec3 (inv.getD e ((0, 0, 0), (0, 0, 0), (0, 0, 0))) (sub3 p (m.vertex e 0)) = lam at *
      generalize values.getD ((m.cells.getD e []).getD 0 0) 0 = v0 at *
      generalize values.getD ((m.cells.getD e []).getD 1 0) 0 = v1 at *
      generalize values.getD ((m.cells.getD e []).getD 2 0) 0 = v2 at *
      generalize values.getD ((m.cells.getD e []).getD 3 0) 0 = v3 at *
      have key : ∀ l v : K, -tol ≤ l → lo ≤ v ∧ v ≤ hi →
          l * lo - tol * (hi - lo) ≤ l * v ∧ l * v ≤ l * hi + tol * (hi - lo) := by
        intro l v hl hv
        have h1 : 0 ≤ (l + tol) * (v - lo) := mul_nonneg (by linarith) (by linarith [hv.1])
        have h2 : 0 ≤ (l + tol) * (hi - v) := mul_nonneg (by linarith) (by linarith [hv.2])
        have h3 : tol * (v - lo) ≤ tol * (hi - lo) := mul_le_mul_of_nonneg_left (by linarith [hv.2]) ht
        have h4 : tol * (hi - v) ≤ tol * (hi - lo) := mul_le_mul_of_nonneg_left (by linarith [hv.1]) ht
        constructor <;> nlinarith
      have k0 := key _ _ a0 b0
      have k1 := key _ _ a1 b1
      have k2 := key _ _ a2 b2
      have k3 := key _ _ a3 b3
      have hsum : ∀ z : K, (1 - (lam.1 + lam.2.1 + lam.2.2)) * z + lam.1 * z + lam.2.1 * z + lam.2.2 * z = z := by
        intro z; ring
      have s1 := hsum lo
      have s2 := hsum hi
      rw [← hxe]
      constructor
      · linarith [k0.1, k1.1, k2.1, k3.1]
      · linarith [k0.2, k1.2, k2.2, k3.2]
    · simp at hxe

/-- With `clip=(lo, hi)` every value is within the interval. -/
theorem C73_clip (tol : K) (candidates : P3 K → List ℕ) (nearest : P3 K → ℕ) (values : List K) (m : TetMesh K)
    (new : List (P3 K)) (lo hi : K) (hlh : lo ≤ hi) (out : List K)
    (h : interpolateField tol candidates nearest values m new (some (lo, hi)) = .ok out) : ∀ x ∈ out, lo ≤ x ∧ x ≤ hi := by
  obtain ⟨inv, -, rfl⟩ := interp_unfold h
  intro x hx
  obtain ⟨p, -, rfl⟩ := List.mem_map.mp hx
  simp only [clipTo]
  exact ⟨le_min (le_max_right _ _) hlh, min_le_right _ _⟩

/-- What the centroid tree guarantees: `min 8 E` distinct elements, none farther than an element left out. -/
def NearestElements (m : TetMesh K) (p : P3 K) (l : List ℕ) : Prop :=
  l.length = min 8 m.cells.length ∧ l.Nodup ∧ (∀ e ∈ l, e < m.cells.length) ∧
    ∀ e ∈ l, ∀ e' < m.cells.length, e' ∉ l →
      dot3 (sub3 (m.centroid e) p) (sub3 (m.centroid e) p) ≤ dot3 (sub3 (m.centroid e') p) (sub3 (m.centroid e') p)

/-- What the node tree guarantees: no node is nearer. -/
def NearestNode (m : TetMesh K) (p : P3 K) (n : ℕ) : Prop :=
  n < m.points.length ∧ ∀ n' < m.points.length,
    dot3 (sub3 (m.points.getD n (0, 0, 0)) p) (sub3 (m.points.getD n (0, 0, 0)) p)
      ≤ dot3 (sub3 (m.points.getD n' (0, 0, 0)) p) (sub3 (m.points.getD n' (0, 0, 0)) p)

end Ordered

/-- A large element next to eight small ones, sharing the origin. -/
def exFan : TetMesh ℚ :=
  ⟨[(0, 0, 0), (40, 0, 0), (0, 40, 0), (0, 0, 40), (0, 0, -8), (-8, 0, 0), (-7, -1, 0), (-6, -2, 0), (-5, -3, 0), (-4, -4, 0),
    (-3, -5, 0), (-2, -6, 0), (-1, -7, 0), (0, -8, 0)],
   [[0, 1, 2, 3], [0, 5, 6, 4], [0, 6, 7, 4], [0, 7, 8, 4], [0, 8, 9, 4], [0, 9, 10, 4], [0, 10, 11, 4], [0, 11, 12, 4],
    [0, 12, 13, 4]]⟩

/-- The field `x` on `exFan`. -/
def exFanX : List ℚ := exFan.points.map (·.1)

theorem exFan_ok : TetMeshOk exFan := by unfold TetMeshOk; decide +kernel

theorem exFan_affine : SamplesAffine exFan exFanX 0 (1, 0, 0) := by
  have : ∀ n < 14, exFanX.getD n 0 = 0 + dot3 (1, 0, 0) (exFan.points.getD n (0, 0, 0)) := by decide +kernel
  exact this

/-- The point `(1, 1, 1)` is inside element 0 of the mesh, but eight other elements have nearer centroids: for every
correct answer of the trees the transferred value of the linear field `x` is the value at the origin, 0, instead of 1. -/
theorem C73_containing_element_missed (candidates : P3 ℚ → List ℕ) (nearest : P3 ℚ → ℕ)
    (hc : NearestElements exFan (1, 1, 1) (candidates (1, 1, 1))) (hn : NearestNode exFan (1, 1, 1) (nearest (1, 1, 1))) :
    InTet exFan 0 (1, 1, 1) ∧
      interpolateField (1 / 100000000) candidates nearest exFanX exFan [(1, 1, 1)] none = .ok [0] ∧
      (0 : ℚ) ≠ 0 + dot3 (1, 0, 0) (1, 1, 1) := by
  refine ⟨⟨37 / 40, 1 / 40, 1 / 40, 1 / 40, ?_⟩, ?_, by decide +kernel⟩
  · decide +kernel
  · obtain ⟨hl, hnd, hlt, hd⟩ := hc
    have h0 : (0 : ℕ) ∉ candidates (1, 1, 1) := by
      intro h0
      have hex : ∃ e' < 9, e' ∉ candidates (1, 1, 1) := by
        by_contra hcon
        push Not at hcon
        have hsub : (List.range 9).Subperm (candidates (1, 1, 1)) :=
          List.subperm_of_subset List.nodup_range fun x hx => hcon x (List.mem_range.mp hx)
        have := hsub.length_le
        rw [hl] at this
        simp [exFan] at this
      obtain ⟨e', he', hne⟩ := hex
      have hfar := hd 0 h0 e' he' hne
      have hne0 : e' ≠ 0 := fun h => hne (h ▸ h0)
      have : ∀ e' < 9, e' ≠ 0 → ¬ dot3 (sub3 (exFan.centroid 0) (1, 1, 1)) (sub3 (exFan.centroid 0) (1, 1, 1))
          ≤ dot3 (sub3 (exFan.centroid e') (1, 1, 1)) (sub3 (exFan.centroid e') (1, 1, 1)) := by decide +kernel
      exact this e' he' hne0 hfar
    have hnear : nearest (1, 1, 1) = 0 := by
      obtain ⟨hlt, hmin⟩ := hn
      have h1 := hmin 0 (by decide)
      have : ∀ n < 14, dot3 (sub3 (exFan.points.getD n (0, 0, 0)) (1, 1, 1)) (sub3 (exFan.points.getD n (0, 0, 0)) (1, 1, 1))
          ≤ dot3 (sub3 (exFan.points.getD 0 (0, 0, 0)) (1, 1, 1)) (sub3 (exFan.points.getD 0 (0, 0, 0)) (1, 1, 1)) → n = 0 := by
        decide +kernel
      exact this _ hlt h1
    obtain ⟨inv, hinv⟩ : ∃ inv, inverses exFan = .ok inv := by
      cases h : inverses exFan with
      | ok inv => exact ⟨inv, rfl⟩
      | error e =>
        have : (inverses exFan).toOption.isSome = true := by decide +kernel
        rw [h] at this
        simp [Except.toOption] at this
    have hout : ∀ e < 9, e ≠ 0 → candidateValue exFan inv (1 / 100000000) exFanX (1, 1, 1) e = none := by
      have hall : ∀ e < 9, e ≠ 0 → (inverses exFan).toOption.map
          (fun i => candidateValue exFan i (1 / 100000000) exFanX (1, 1, 1) e) = some none := by decide +kernel
      intro e he h0
      have := hall e he h0
      rw [hinv] at this
      simpa [Except.toOption] using this
    have hf : (candidates (1, 1, 1)).findSome? (candidateValue exFan inv (1 / 100000000) exFanX (1, 1, 1)) = none := by
      rw [List.findSome?_eq_none_iff]
      intro e he
      exact hout e (hlt e he) (fun h => h0 (h ▸ he))
    have hshape : (exFan.cells.any fun c => c.length != 4) = false := by decide
    unfold interpolateField
    rw [hshape, hinv]
    simp only [Bool.false_eq_true, if_false, bind, Except.bind, pure, Except.pure, List.map_cons, List.map_nil, hf, hnear]
    decide +kernel

/-- The tree answers exist. -/
example : NearestElements exFan (1, 1, 1) [1, 2, 3, 4, 5, 6, 7, 8] ∧ NearestNode exFan (1, 1, 1) 0 := by
  unfold NearestElements NearestNode; decide +kernel

/-- `C73_linear_small_mesh` on a two-element mesh. -/
example : interpolateField (1 / 100000000) (fun _ => [1, 0]) (fun _ => 0) [0, 2, 0, 0, 2]
    (⟨[(0, 0, 0), (2, 0, 0), (0, 3, 0), (0, 0, 5), (2, 3, 5)], [[0, 1, 2, 3], [1, 2, 3, 4]]⟩ : TetMesh ℚ)
    [(1 / 2, 1 / 2, 1 / 2), (1, 1, 2)] none = .ok [1 / 2, 1] := by decide +kernel

section Sizes
variable {K : Type} [Field K] [LinearOrder K] [IsStrictOrderedRing K]

/-! ## C74 -/

/-- **C74, bounds.** The prescribed element size is between `h_min` and `h_max` at every point, for every field. -/
theorem C74_bounds (small hMin hMax : K) (hh : hMin ≤ hMax) (nearest : P3 K → ℕ) (field : Option (List K)) (p : P3 K) (h : K)
    (hr : sizeAt small hMin hMax nearest field p = .ok h) : hMin ≤ h ∧ h ≤ hMax := by
  unfold sizeAt at hr
  match field with
  | none =>
    simp only [Except.ok.injEq] at hr
    subst hr; exact ⟨hh, le_refl _⟩
  | some f =>
    simp only [] at hr
    have hb : ∀ x ∈ f.map fun x => min (max x 0) 1, (0 : K) ≤ x ∧ x ≤ 1 := by
      intro x hx
      obtain ⟨y, -, rfl⟩ := List.mem_map.mp hx
      exact ⟨le_min (le_max_right _ _) zero_le_one, min_le_right _ _⟩
    generalize (f.map fun x => min (max x 0) 1) = l at hb hr
    match l with
    | [] => simp at hr
    | a :: as =>
      simp only [] at hr
      split at hr
      · simp only [Except.ok.injEq] at hr
        subst hr; exact ⟨hh, le_refl _⟩
      · simp only [Except.ok.injEq] at hr
        have hx : 0 ≤ (a :: as).getD (nearest p) 0 ∧ (a :: as).getD (nearest p) 0 ≤ 1 := by
          by_cases hk : nearest p < (a :: as).length
          · rw [List.getD_eq_getElem _ _ hk]; exact hb _ (List.getElem_mem hk)
          · rw [List.getD_eq_default _ _ (by omega)]; exact ⟨le_refl _, zero_le_one⟩
        generalize (a :: as).getD (nearest p) 0 = x at hx hr
        have h1 : 0 ≤ x * (hMax - hMin) := mul_nonneg hx.1 (by linarith)
        have h2 : x * (hMax - hMin) ≤ 1 * (hMax - hMin) := mul_le_mul_of_nonneg_right hx.2 (by linarith)
        rw [← hr]
        constructor <;> linarith

/-- Where the field is not uniform the size is the linear interpolation between `h_max` (field at most 0) and `h_min`
(field at least 1) of the value at the nearest old node. Missing for the full claim: uniform fields, see
`C74_uniform_field_ignored`. -/
theorem C74_interpolates_partial (small hMin hMax : K) (nearest : P3 K → ℕ) (f : List K)
    (hne : ∃ i < f.length, ∃ j < f.length, small ≤ min (max (f.getD i 0) 0) 1 - min (max (f.getD j 0) 0) 1) (p : P3 K)
    (hp : nearest p < f.length) :
    sizeAt small hMin hMax nearest (some f) p
      = .ok (hMax - min (max (f.getD (nearest p) 0) 0) 1 * (hMax - hMin)) := by
  obtain ⟨i, hi, j, hj, hij⟩ := hne
  unfold sizeAt
  simp only []
  have hg : ∀ k < f.length, (f.map fun x => min (max x 0) 1).getD k 0 = min (max (f.getD k 0) 0) 1 := by
    intro k hk
    simp [hk]
  have hl : (f.map fun x => min (max x 0) 1).length = f.length := by simp
  generalize (f.map fun x => min (max x 0) 1) = l at hg hl
  match l with
  | [] => simp at hl; omega
  | a :: as =>
    have hm1 := (foldl_max_spec as a).1 ((a :: as).getD i 0) (by
      rw [List.getD_eq_getElem _ _ (by omega)]; exact List.getElem_mem _)
    have hm2 := (foldl_min_spec as a).1 ((a :: as).getD j 0) (by
      rw [List.getD_eq_getElem _ _ (by omega)]; exact List.getElem_mem _)
    rw [hg i hi] at hm1
    rw [hg j hj] at hm2
    simp only []
    rw [if_neg (by linarith), hg _ hp]

/-- A field that is 1 everywhere should give `h_min` everywhere (`field ≈ 1`); the size is `h_max`. -/
theorem C74_uniform_field_ignored (hMin hMax : K) (nearest : P3 K → ℕ) (small : K) (hs : 0 < small) (n : ℕ) (p : P3 K) :
    sizeAt small hMin hMax nearest (some (List.replicate (n + 1) 1)) p = .ok hMax := by
  unfold sizeAt
  have h0 : (List.replicate (n + 1) (1 : K)).map (fun x => min (max x 0) 1) = 1 :: List.replicate n 1 := by
    rw [List.map_replicate, max_eq_left zero_le_one, min_self, List.replicate_succ]
  simp only [h0]
  have h1 : (List.replicate n (1 : K)).foldl max 1 = 1 := by
    have h := (foldl_max_spec (List.replicate n (1 : K)) 1).2
    rw [← List.replicate_succ] at h
    exact (List.mem_replicate.mp h).2
  have h2 : (List.replicate n (1 : K)).foldl min 1 = 1 := by
    have h := (foldl_min_spec (List.replicate n (1 : K)) 1).2
    rw [← List.replicate_succ] at h
    exact (List.mem_replicate.mp h).2
  rw [h1, h2, if_pos (by simpa using hs)]

example : sizeAt (1 / 100) (1 / 10) 1 (fun _ => 1) (some [0, 1 / 2, 3]) ((0, 0, 0) : P3 ℚ) = .ok (11 / 20) := by decide +kernel

/-! ## C75 -/

/-- A run of the retuning: the sizes tried, each the previous one scaled by the cube root of the ratio of its node count
to the target. -/
def TriedSizes {Mesh : Type} (generate : K → K → Mesh) (count : Mesh → K) (cbrt : K → K) (target : K) (s : List (K × K)) : Prop :=
  ∀ k, k + 1 < s.length →
    let q := cbrt (count (generate (s.getD k (0, 0)).1 (s.getD k (0, 0)).2) / target)
    s.getD (k + 1) (0, 0) = ((s.getD k (0, 0)).1 * q, (s.getD k (0, 0)).2 * q)

/-- The node count of the mesh for these sizes is in the accepted band. -/
def InBand {Mesh : Type} (generate : K → K → Mesh) (count : Mesh → K) (lo hi target : K) (s : K × K) : Prop :=
  lo < count (generate s.1 s.2) / target ∧ count (generate s.1 s.2) / target < hi

theorem retune_trace {Mesh : Type} (generate : K → K → Mesh) (count : Mesh → K) (cbrt : K → K) (lo hi target : K) (n : ℕ)
    (a b : K) :
    ∃ s : List (K × K), s ≠ [] ∧ s.length ≤ n + 1 ∧ s.getD 0 (0, 0) = (a, b) ∧
      TriedSizes generate count cbrt target s ∧
      (∀ k, k + 1 < s.length → ¬ InBand generate count lo hi target (s.getD k (0, 0))) ∧
      (s.length = n + 1 ∨ InBand generate count lo hi target (s.getD (s.length - 1) (0, 0))) ∧
      retune generate count cbrt lo hi target n (a, b, generate a b)
        = ((s.getD (s.length - 1) (0, 0)).1, (s.getD (s.length - 1) (0, 0)).2,
            generate (s.getD (s.length - 1) (0, 0)).1 (s.getD (s.length - 1) (0, 0)).2) := by
  induction n generalizing a b with
  | zero => exact ⟨[(a, b)], by simp, by simp, by simp, by intro k hk; simp at hk, by intro k hk; simp at hk, .inl (by simp), by simp [retune]⟩
  | succ n ih =>
    by_cases hin : InBand generate count lo hi target (a, b)
    · refine ⟨[(a, b)], by simp, by simp, by simp, by intro k hk; simp at hk, by intro k hk; simp at hk, .inr (by simpa using hin), ?_⟩
      rw [retune]
      exact if_pos hin
    · obtain ⟨s, hs, hl, h0, ht, hb, hend, hr⟩ :=
        ih (a * cbrt (count (generate a b) / target)) (b * cbrt (count (generate a b) / target))
      have hpos : 0 < s.length := List.length_pos_iff.mpr hs
      have hlast : ((a, b) :: s).getD (((a, b) :: s).length - 1) (0, 0) = s.getD (s.length - 1) (0, 0) := by
        rw [List.length_cons]
        obtain ⟨m, hm⟩ : ∃ m, s.length = m + 1 := ⟨s.length - 1, by omega⟩
        rw [hm]
        simp
      refine ⟨(a, b) :: s, by simp, by simp; omega, by simp, ?_, ?_, ?_, ?_⟩
      · intro k hk
        cases k with
        | zero => simpa using h0
        | succ k =>
          simp only [List.getD_cons_succ]
          exact ht k (by simp at hk; omega)
      · intro k hk
        cases k with
        | zero => simpa using hin
        | succ k =>
          simp only [List.getD_cons_succ]
          exact hb k (by simp at hk; omega)
      · rw [hlast]
        rcases hend with h | h
        · exact .inl (by simp [h])
        · exact .inr h
      · rw [hlast, retune]
        have : ¬ (lo < count (generate a b) / target ∧ count (generate a b) / target < hi) := hin
        simp only [if_neg this]
        exact hr

/-- **C75.** `adaptive_box_mesh` with a target meshes at most `max_retries + 1` times, starting with the sizes given; it
goes on exactly while the node count is outside the band, each time scaling both sizes by the same factor, and returns the
mesh of the last sizes tried. The band is missed only after `max_retries` retries. -/
theorem C75_retune {Mesh : Type} (generate : K → K → Mesh) (count : Mesh → K) (cbrt : K → K) (lo hi hMin hMax target : K)
    (retries : ℕ) :
    ∃ s : List (K × K), s ≠ [] ∧ s.length ≤ retries + 1 ∧ s.getD 0 (0, 0) = (hMin, hMax) ∧
      TriedSizes generate count cbrt target s ∧
      (∀ k, k + 1 < s.length → ¬ InBand generate count lo hi target (s.getD k (0, 0))) ∧
      (s.length = retries + 1 ∨ InBand generate count lo hi target (s.getD (s.length - 1) (0, 0))) ∧
      (adaptiveBox generate count cbrt lo hi hMin hMax (some target) retries).2.2
        = generate (s.getD (s.length - 1) (0, 0)).1 (s.getD (s.length - 1) (0, 0)).2 := by
  obtain ⟨s, h1, h2, h3, h4, h5, h6, h7⟩ := retune_trace generate count cbrt lo hi target retries hMin hMax
  exact ⟨s, h1, h2, h3, h4, h5, h6, by simp only [adaptiveBox, h7]⟩

/-- The ratio of the two sizes never changes, with or without a target. -/
theorem C75_ratio {Mesh : Type} (generate : K → K → Mesh) (count : Mesh → K) (cbrt : K → K) (lo hi hMin hMax : K)
    (target : Option K) (retries : ℕ) :
    let r := adaptiveBox generate count cbrt lo hi hMin hMax target retries
    r.1 * hMax = r.2.1 * hMin ∧ r.2.2 = generate r.1 r.2.1 := by
  have key : ∀ (t : K) (n : ℕ) (a b : K), a * hMax = b * hMin →
      let r := retune generate count cbrt lo hi t n (a, b, generate a b)
      r.1 * hMax = r.2.1 * hMin ∧ r.2.2 = generate r.1 r.2.1 := by
    intro t n
    induction n with
    | zero => intro a b h; exact ⟨h, rfl⟩
    | succ n ih =>
      intro a b h
      simp only [retune]
      split
      · exact ⟨h, rfl⟩
      · apply ih
        linear_combination cbrt (count (generate a b) / t) * h
  cases target with
  | none => exact ⟨mul_comm _ _, rfl⟩
  | some t => exact key t retries hMin hMax (mul_comm _ _)

/-- A run that needs two retries. -/
example : (adaptiveBox (fun a b : ℚ => (a, b)) (fun m => 100 / (m.1 * m.2)) (fun r => (r + 1) / 2) (7 / 10) (13 / 10) 1 2 (some 30) 5).2.2
    = (4 / 3, 8 / 3) := by decide +kernel

end Sizes

/-! Instances of the theorems on two elements. -/

/-- Two tetrahedra. -/
def exTetPair : TetMesh ℚ :=
  ⟨[(0, 0, 0), (2, 0, 0), (0, 3, 0), (0, 0, 5), (2, 3, 5)], [[0, 1, 2, 3], [1, 2, 3, 4]]⟩

theorem exTetPair_ok : TetMeshOk exTetPair := by unfold TetMeshOk; decide +kernel

example := C55_constant exTetPair exTetPair_ok 7 1 (by decide) (0, 0, 0) (by decide +kernel)
example := C55_node_average 5 exTetPair.cells [3, (4 : ℚ)] rfl (by decide) 4 (by decide)
example := C55_range (fun v : P3 ℚ => |v.1| + |v.2.1| + |v.2.2|) (fun _ => by positivity) (1 / 1000) (by norm_num) (by norm_num)
  [1, 3, 4, 1, 7] exTetPair [1, 227 / 240, 227 / 240, 227 / 240, 107 / 120] (by decide +kernel)
example := C73_bounds (1 / 100000000 : ℚ) (by norm_num) (fun _ => [1, 0]) (fun _ => 0) [0, 2, 0, 0, 2] exTetPair exTetPair_ok rfl
  [(1 / 2, 1 / 2, 1 / 2), (1, 1, 2)] [1 / 2, 1] (by decide) (by decide) (by decide +kernel) 0 2 (by decide +kernel)
example := C73_clip (1 / 100000000 : ℚ) (fun _ => [1, 0]) (fun _ => 0) [0, 2, 0, 0, 2] exTetPair
  [(1 / 2, 1 / 2, 1 / 2), (1, 1, 2)] 0 (3 / 4) (by norm_num) [1 / 2, 3 / 4] (by decide +kernel)
example := C73_linear_partial (1 / 100000000 : ℚ) (by norm_num) (fun _ => [1, 0]) (fun _ => 0) [0, 2, 0, 0, 2] exTetPair exTetPair_ok
  [(1 / 2, 1 / 2, 1 / 2), (1, 1, 2)] [1 / 2, 1] (by decide) (by decide +kernel) 0 (1, 0, 0)
  (by unfold SamplesAffine; decide +kernel) 0 (by decide) ⟨0, by decide, 29 / 60, 1 / 4, 1 / 6, 1 / 10, by decide +kernel⟩
example := C73_linear_small_mesh (1 / 100000000 : ℚ) (by norm_num) (fun _ => [1, 0]) (fun _ => 0) [0, 2, 0, 0, 2] exTetPair
  exTetPair_ok (by decide) [(1 / 2, 1 / 2, 1 / 2), (1, 1, 2)] [1 / 2, 1] (fun _ => by decide) (by decide +kernel) 0 (1, 0, 0)
  (by unfold SamplesAffine; decide +kernel) 0 (by decide) ⟨0, by decide, 29 / 60, 1 / 4, 1 / 6, 1 / 10, by decide +kernel⟩
example := C74_bounds (1 / 100 : ℚ) (1 / 10) 1 (by norm_num) (fun _ => 1) (some [0, 1 / 2, 3]) (0, 0, 0) (11 / 20) (by decide +kernel)
example := C74_interpolates_partial (1 / 100 : ℚ) (1 / 10) 1 (fun _ => 1) [0, 1 / 2, 3] ⟨2, by decide, 0, by decide, by decide +kernel⟩
  (0, 0, 0) (by decide)
example := C74_uniform_field_ignored (1 / 10 : ℚ) 1 (fun _ => 1) (1 / 100) (by norm_num) 4 (0, 0, 0)
example := C73_containing_element_missed (fun _ => [1, 2, 3, 4, 5, 6, 7, 8]) (fun _ => 0)
  (by unfold NearestElements; decide +kernel) (by unfold NearestNode; decide +kernel)

end Verif.Props
