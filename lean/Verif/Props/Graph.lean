import Verif.Model.Graph
import Verif.Props.Batched
import Mathlib.Algebra.Order.BigOperators.Group.Finset
import Mathlib.Tactic.Linarith
import Mathlib.Tactic.LinearCombination
import Mathlib.Tactic.FieldSimp
import Mathlib.Tactic.Ring
import Mathlib.Algebra.Order.Ring.Rat
import Mathlib.Algebra.BigOperators.Ring.Finset

/-!
# Lattice graphs: C57, C76
-/

namespace Verif.Props
open Verif.Model Verif.Lemmas

section
variable {K : Type} [Field K] [LinearOrder K] [IsStrictOrderedRing K] {dim : ℕ}

/-! ## Specification -/

/-- `x` is within `r` of some point of the segment from `p` to `q`. -/
def NearSegment (x p q : Fin dim → K) (r : K) : Prop :=
  ∃ s : K, 0 ≤ s ∧ s ≤ 1 ∧ ∑ i, (x i - (p i + s * (q i - p i))) ^ 2 ≤ r ^ 2

/-- `x` is in the lattice: within `r` of some strut. -/
def InLattice (x : Fin dim → K) (nodes : List (Fin dim → K)) (struts : ℕ → ℕ → Prop) (r : K) : Prop :=
  ∃ i j, struts i j ∧ NearSegment x (nodeAt nodes i) (nodeAt nodes j) r

/-! ## C76 -/

theorem dist_poly (x p v : Fin dim → K) (s : K) :
    ∑ i, (x i - (p i + s * v i)) ^ 2
      = dotF (fun i => x i - p i) (fun i => x i - p i) - 2 * s * dotF (fun i => x i - p i) v + s * s * dotF v v := by
  simp only [dotF, Finset.mul_sum]
  rw [← Finset.sum_sub_distrib, ← Finset.sum_add_distrib]
  apply Finset.sum_congr rfl
  intro i _
  ring

theorem dotF_self_nonneg (v : Fin dim → K) : 0 ≤ dotF v v :=
  Finset.sum_nonneg fun i _ => mul_self_nonneg (v i)

theorem dotF_self_zero {v : Fin dim → K} (h : dotF v v = 0) : ∀ i, v i = 0 := by
  intro i
  have := (Finset.sum_eq_zero_iff_of_nonneg fun i _ => mul_self_nonneg (v i)).mp h i (Finset.mem_univ i)
  exact mul_self_eq_zero.mp this

/-- The computed number is attained on the segment and is the smallest squared distance to a point of the segment. -/
theorem segment_min (x p q : Fin dim → K) :
    (∃ s : K, 0 ≤ s ∧ s ≤ 1 ∧ segmentDistSq x p q = ∑ i, (x i - (p i + s * (q i - p i))) ^ 2) ∧
      ∀ s : K, 0 ≤ s → s ≤ 1 → segmentDistSq x p q ≤ ∑ i, (x i - (p i + s * (q i - p i))) ^ 2 := by
  set v : Fin dim → K := fun i => q i - p i with hv
  set a := dotF (fun i => x i - p i) v with ha
  set b := dotF v v with hb
  set t : K := if 0 < b then min (max (a / b) 0) 1 else 0 with ht
  have hd : segmentDistSq x p q = ∑ i, (x i - (p i + t * v i)) ^ 2 := by
    unfold segmentDistSq
    simp only [dotF]
    apply Finset.sum_congr rfl
    intro i _
    rw [pow_two]
    rfl
  have ht01 : 0 ≤ t ∧ t ≤ 1 := by
    rw [ht]
    split
    · exact ⟨le_min (le_max_right _ _) zero_le_one, min_le_right _ _⟩
    · exact ⟨le_refl _, zero_le_one⟩
  refine ⟨⟨t, ht01.1, ht01.2, hd⟩, ?_⟩
  intro s hs0 hs1
  rw [hd]
  have e1 := dist_poly x p v t
  have e2 := dist_poly x p v s
  rw [e1]
  change _ ≤ ∑ i, (x i - (p i + s * v i)) ^ 2
  rw [e2, ← ha, ← hb]
  by_cases hbp : 0 < b
  · rw [if_pos hbp] at ht
    have hab : a / b * b = a := div_mul_cancel₀ a hbp.ne'
    rcases le_total (a / b) 0 with h | h
    · have : t = 0 := by rw [ht, max_eq_right h, min_eq_left zero_le_one]
      rw [this]
      have ha0 : a ≤ 0 := by rw [← hab]; exact mul_nonpos_of_nonpos_of_nonneg h hbp.le
      nlinarith [mul_nonneg hs0 (neg_nonneg.mpr ha0), mul_nonneg (mul_nonneg hs0 hs0) hbp.le]
    · rw [max_eq_left h] at ht
      rcases le_total (a / b) 1 with h1 | h1
      · rw [min_eq_left h1] at ht
        have hta : t * b = a := by rw [ht]; exact hab
        nlinarith [mul_nonneg (mul_self_nonneg (s - t)) hbp.le]
      · rw [min_eq_right h1] at ht
        have hba : b ≤ a := by
          have := mul_le_mul_of_nonneg_right h1 hbp.le
          rw [hab] at this; linarith
        rw [ht]
        nlinarith [mul_nonneg (sub_nonneg.mpr hs1) (sub_nonneg.mpr hba), mul_nonneg (mul_nonneg (sub_nonneg.mpr hs1) (sub_nonneg.mpr hs1)) hbp.le]
  · have hb0 : b = 0 := le_antisymm (not_lt.mp hbp) (dotF_self_nonneg v)
    have hv0 := dotF_self_zero hb0
    have ha0 : a = 0 := by
      rw [ha]
      exact Finset.sum_eq_zero fun i _ => by rw [hv0 i, mul_zero]
    rw [ha0, hb0]
    simp

theorem near_iff (x p q : Fin dim → K) (r : K) : segmentDistSq x p q ≤ r * r ↔ NearSegment x p q r := by
  obtain ⟨⟨s, h0, h1, he⟩, hmin⟩ := segment_min x p q
  constructor
  · intro h
    exact ⟨s, h0, h1, by rw [← he, pow_two]; exact h⟩
  · rintro ⟨s', h0', h1', h⟩
    have := hmin s' h0' h1'
    rw [pow_two] at h
    exact le_trans this h

theorem near_symm {x p q : Fin dim → K} {r : K} (h : NearSegment x p q r) : NearSegment x q p r := by
  obtain ⟨s, h0, h1, h⟩ := h
  refine ⟨1 - s, by linarith, by linarith, ?_⟩
  refine le_trans (le_of_eq ?_) h
  apply Finset.sum_congr rfl
  intro i _
  ring

/-- **C76.** The lattice indicator from an edge list is 1 exactly at the points within the radius of some strut, else 0;
a negative radius is refused. -/
theorem C76_indicator (x : Fin dim → K) (nodes : List (Fin dim → K)) (edges : List (ℕ × ℕ)) (r : K) (hr : 0 ≤ r) :
    ∃ v, universalGraph x nodes edges r = .ok v ∧ (v = 0 ∨ v = 1) ∧
      (v = 1 ↔ InLattice x nodes (fun i j => (i, j) ∈ edges) r) := by
  have hany : (edges.any fun e => decide (segmentDistSq x (nodeAt nodes e.1) (nodeAt nodes e.2) ≤ r * r)) = true
      ↔ InLattice x nodes (fun i j => (i, j) ∈ edges) r := by
    simp only [List.any_eq_true, decide_eq_true_eq, near_iff, InLattice, Prod.exists]
  unfold universalGraph
  rw [if_neg (not_lt.mpr hr)]
  match edges with
  | [] =>
    refine ⟨0, rfl, .inl rfl, ?_⟩
    constructor
    · intro h; exact absurd h zero_ne_one
    · rintro ⟨i, j, h, -⟩; simp at h
  | e :: es =>
    refine ⟨_, rfl, ?_, ?_⟩
    · split <;> simp
    · rw [← hany]
      split
      · simp_all
      · simp_all

theorem C76_negative_radius (x : Fin dim → K) (nodes : List (Fin dim → K)) (edges : List (ℕ × ℕ)) (a : List (List K)) (r : K)
    (hr : r < 0) : universalGraph x nodes edges r = .error .valueError ∧ universalGraphAdj x nodes a r = .error .valueError := by
  unfold universalGraph universalGraphAdj
  simp [hr]

/-- **C76** from an adjacency matrix: the struts are the non-zero entries above the diagonal. -/
theorem C76_indicator_adj (x : Fin dim → K) (nodes : List (Fin dim → K)) (a : List (List K)) (r : K) (hr : 0 ≤ r) :
    ∃ v, universalGraphAdj x nodes a r = .ok v ∧ (v = 0 ∨ v = 1) ∧
      (v = 1 ↔ InLattice x nodes (fun i j => i < j ∧ j < a.length ∧ adjEntry a i j ≠ 0) r) := by
  unfold universalGraphAdj
  rw [if_neg (not_lt.mpr hr)]
  refine ⟨_, rfl, ?_, ?_⟩
  · split <;> simp
  · have hany : ((List.range a.length).any fun i => (List.range a.length).any fun j => decide (i < j) && decide (adjEntry a i j ≠ 0) &&
      decide (segmentDistSq x (nodeAt nodes i) (nodeAt nodes j) ≤ r * r)) = true
      ↔ InLattice x nodes (fun i j => i < j ∧ j < a.length ∧ adjEntry a i j ≠ 0) r := by
      simp only [List.any_eq_true, Bool.and_eq_true, decide_eq_true_eq, near_iff, InLattice, List.mem_range]
      constructor
      · rintro ⟨i, hi, j, hj, ⟨hij, hne⟩, hn⟩
        exact ⟨i, j, ⟨hij, hj, hne⟩, hn⟩
      · rintro ⟨i, j, ⟨hij, hj, hne⟩, hn⟩
        exact ⟨i, lt_trans hij hj, j, hj, ⟨hij, hne⟩, hn⟩
    rw [← hany]
    split <;> simp_all

/-! ## C57 -/

/-- The order in which the pairs above the diagonal are listed. -/
def PairLt (a b : ℕ × ℕ) : Prop := a.1 < b.1 ∨ a.1 = b.1 ∧ a.2 < b.2

/-- The canonical edge list of a simple undirected graph on `n` nodes: each edge once, smaller node first, in increasing
order. -/
def CanonicalEdges (n : ℕ) (edges : List (ℕ × ℕ)) : Prop :=
  (∀ e ∈ edges, e.1 < e.2 ∧ e.2 < n) ∧ edges.Pairwise PairLt

/-- Any edge list of a simple undirected graph on `n` nodes: no loops; order, orientation and repetitions are free. -/
def SimpleEdges (n : ℕ) (edges : List (ℕ × ℕ)) : Prop := ∀ e ∈ edges, e.1 ≠ e.2 ∧ e.1 < n ∧ e.2 < n

/-- The adjacency matrix of a simple undirected graph on `n` nodes. -/
structure AdjacencyOf (n : ℕ) (a : List (List K)) : Prop where
  rows : a.length = n
  cols : ∀ r ∈ a, r.length = n
  zeroOne : ∀ i < n, ∀ j < n, adjEntry a i j = 0 ∨ adjEntry a i j = 1
  symm : ∀ i < n, ∀ j < n, adjEntry a i j = adjEntry a j i
  diag : ∀ i < n, adjEntry a i i = 0

theorem mem_triuPairs (n i j : ℕ) : (i, j) ∈ triuPairs n ↔ i < j ∧ j < n := by
  simp only [triuPairs, List.mem_flatMap, List.mem_range, List.mem_map, List.mem_range'_1, Prod.mk.injEq]
  constructor
  · rintro ⟨a, ha, b, hb, rfl, rfl⟩; omega
  · rintro ⟨h1, h2⟩; exact ⟨i, by omega, j, by omega, rfl, rfl⟩

theorem triuPairs_sorted (n : ℕ) : (triuPairs n).Pairwise PairLt := by
  unfold triuPairs
  rw [List.flatMap_def, List.pairwise_flatten]
  constructor
  · intro l hl
    obtain ⟨i, -, rfl⟩ := List.mem_map.mp hl
    rw [List.pairwise_map]
    exact (List.pairwise_lt_range' (s := i + 1)).imp fun h => .inr ⟨rfl, h⟩
  · rw [List.pairwise_map]
    refine List.pairwise_lt_range.imp ?_
    intro a b hab x hx y hy
    obtain ⟨_, -, rfl⟩ := List.mem_map.mp hx
    obtain ⟨_, -, rfl⟩ := List.mem_map.mp hy
    exact .inl hab

theorem filter_via_index {A : Type} (d : A) (p : A → Bool) (l : List A) :
    ((List.range l.length).filter fun k => p (l.getD k d)).map (fun k => l.getD k d) = l.filter p := by
  have : l = (List.range l.length).map fun k => l.getD k d := by
    apply List.ext_getElem
    · simp
    · intro k h1 h2; simp [h1]
  conv_rhs => rw [this, List.filter_map]
  rfl

theorem compress_map {A : Type} (l : List ℤ) (f : ℤ → A) (g : ℤ → Bool) :
    compress (l.map f) (l.map g) = (l.filter g).map f := by
  unfold compress
  induction l with
  | nil => rfl
  | cons a l ih =>
    by_cases h : g a = true
    · simp_all
    · simp_all

theorem adj2edges_eq (a : List (List K)) :
    adj2edges a = (triuPairs a.length).filter fun e => decide (adjEntry a e.1 e.2 ≠ 0) := by
  unfold adj2edges
  simp only []
  rw [compress_map]
  set pairs := triuPairs a.length
  set hits := (List.range pairs.length).filter fun k => decide (adjEntry a (pairs.getD k (0, 0)).1 (pairs.getD k (0, 0)).2 ≠ 0) with hh
  have h1 : (hits.map Int.ofNat ++ List.replicate (pairs.length - hits.length) (-1)).filter (fun k : ℤ => decide (k ≠ -1))
      = hits.map Int.ofNat := by
    rw [List.filter_append]
    have : (List.replicate (pairs.length - hits.length) (-1 : ℤ)).filter (fun k : ℤ => decide (k ≠ -1)) = [] := by
      simp
    rw [this, List.append_nil, List.filter_eq_self]
    intro x hx
    obtain ⟨k, -, rfl⟩ := List.mem_map.mp hx
    simp
  rw [h1, List.map_map]
  have h2 := filter_via_index (0, 0) (fun e : ℕ × ℕ => decide (adjEntry a e.1 e.2 ≠ 0)) pairs
  rw [← h2]
  apply List.map_congr_left
  intro k hk
  have : ¬ ((k : ℤ) < 0) := by omega
  simp [this]

theorem mem_adj2edges (a : List (List K)) (i j : ℕ) : (i, j) ∈ adj2edges a ↔ i < j ∧ j < a.length ∧ adjEntry a i j ≠ 0 := by
  rw [adj2edges_eq, List.mem_filter, mem_triuPairs]
  simp [and_assoc]

theorem adj2edges_canonical (a : List (List K)) : CanonicalEdges a.length (adj2edges a) := by
  constructor
  · rintro ⟨i, j⟩ he
    rw [mem_adj2edges] at he
    exact ⟨he.1, he.2.1⟩
  · rw [adj2edges_eq]
    exact (triuPairs_sorted _).filter _

/-- Shape of a square matrix. -/
def Square (n : ℕ) (a : List (List K)) : Prop := a.length = n ∧ ∀ r ∈ a, r.length = n

theorem setEntry_square {n : ℕ} {a : List (List K)} (h : Square n a) (i j : ℕ) : Square n (setEntry a i j) := by
  refine ⟨by simp [setEntry, h.1], ?_⟩
  intro r hr
  unfold setEntry at hr
  obtain ⟨k, hk, rfl⟩ := List.getElem_of_mem hr
  rw [List.getElem_modify]
  split
  · simp [h.2 _ (List.getElem_mem _)]
  · exact h.2 _ (List.getElem_mem _)

theorem setEntry_entry {n : ℕ} {a : List (List K)} (h : Square n a) (i j p q : ℕ) (hp : p < n) (hq : q < n) :
    adjEntry (setEntry a i j) p q = if p = i ∧ q = j then 1 else adjEntry a p q := by
  unfold adjEntry setEntry
  have hpl : p < a.length := by rw [h.1]; exact hp
  have hr : (a[p]).length = n := h.2 _ (List.getElem_mem _)
  rw [List.getD_eq_getElem (a.modify i _) _ (by simpa using hpl), List.getElem_modify, List.getD_eq_getElem a _ hpl]
  by_cases hip : i = p
  · subst hip
    simp only [if_true, true_and]
    rw [List.getD_eq_getElem _ _ (by simp [hr, hq]), List.getElem_set, List.getD_eq_getElem _ _ (by omega)]
    by_cases hjq : j = q
    · simp [hjq]
    · simp [hjq, Ne.symm hjq]
  · simp [hip, Ne.symm hip]

theorem fold_entries {n : ℕ} (edges : List (ℕ × ℕ)) (a : List (List K)) (h : Square n a) :
    Square n (edges.foldl (fun a e => setEntry (setEntry a e.1 e.2) e.2 e.1) a) ∧
      ∀ p < n, ∀ q < n, adjEntry (edges.foldl (fun a e => setEntry (setEntry a e.1 e.2) e.2 e.1) a) p q
        = if (p, q) ∈ edges ∨ (q, p) ∈ edges then 1 else adjEntry a p q := by
  induction edges generalizing a with
  | nil => exact ⟨h, fun p _ q _ => by simp⟩
  | cons e es ih =>
    obtain ⟨i, j⟩ := e
    obtain ⟨h1, h2⟩ := ih _ (setEntry_square (setEntry_square h i j) j i)
    refine ⟨h1, fun p hp q hq => ?_⟩
    rw [List.foldl_cons, h2 p hp q hq, setEntry_entry (setEntry_square h i j) j i p q hp hq, setEntry_entry h i j p q hp hq]
    simp only [List.mem_cons, Prod.mk.injEq]
    by_cases c1 : (p, q) ∈ es ∨ (q, p) ∈ es
    · rw [if_pos c1, if_pos (by tauto)]
    · rw [if_neg c1]
      by_cases c2 : p = j ∧ q = i
      · rw [if_pos c2, if_pos (by tauto)]
      · rw [if_neg c2]
        by_cases c3 : p = i ∧ q = j
        · rw [if_pos c3, if_pos (by tauto)]
        · rw [if_neg c3, if_neg (by tauto)]

theorem edges2adj_spec (edges : List (ℕ × ℕ)) (n : ℕ) :
    Square n (edges2adj (K := K) edges (some n)) ∧
      ∀ p < n, ∀ q < n, adjEntry (edges2adj (K := K) edges (some n)) p q = if (p, q) ∈ edges ∨ (q, p) ∈ edges then 1 else 0 := by
  have h0 : Square n (List.replicate n (List.replicate n (0 : K))) :=
    ⟨by simp, fun r hr => by rw [(List.mem_replicate.mp hr).2]; simp⟩
  have hz : ∀ p < n, ∀ q < n, adjEntry (List.replicate n (List.replicate n (0 : K))) p q = 0 := by
    intro p hp q hq
    simp [adjEntry, hp, hq]
  have hf := fold_entries edges _ h0
  have he : edges2adj (K := K) edges (some n)
      = edges.foldl (fun a e => setEntry (setEntry a e.1 e.2) e.2 e.1) (List.replicate n (List.replicate n 0)) := by
    unfold edges2adj
    cases edges <;> rfl
  rw [he]
  refine ⟨hf.1, fun p hp q hq => ?_⟩
  rw [hf.2 p hp q hq, hz p hp q hq]

/-- **C57, edge list to matrix.** The result is the adjacency matrix of the graph. -/
theorem C57_matrix (n : ℕ) (edges : List (ℕ × ℕ)) (h : SimpleEdges n edges) :
    AdjacencyOf n (edges2adj (K := K) edges (some n)) ∧
      ∀ i < n, ∀ j < n, (adjEntry (edges2adj (K := K) edges (some n)) i j = 1 ↔ (i, j) ∈ edges ∨ (j, i) ∈ edges) := by
  obtain ⟨hs, he⟩ := edges2adj_spec (K := K) edges n
  refine ⟨⟨hs.1, hs.2, ?_, ?_, ?_⟩, ?_⟩
  · intro i hi j hj
    rw [he i hi j hj]
    split <;> simp
  · intro i hi j hj
    rw [he i hi j hj, he j hj i hi]
    simp only [or_comm]
  · intro i hi
    rw [he i hi i hi, if_neg]
    rintro (h' | h') <;> exact (h _ h').1 rfl
  · intro i hi j hj
    rw [he i hi j hj]
    split <;> simp_all

/-- **C57, edge set.** From any edge list of a simple graph, going to the matrix and back gives the canonical edge list of
the same graph. -/
theorem C57_edge_set (n : ℕ) (edges : List (ℕ × ℕ)) (h : SimpleEdges n edges) :
    CanonicalEdges n (adj2edges (edges2adj (K := K) edges (some n))) ∧
      ∀ i j, (i, j) ∈ adj2edges (edges2adj (K := K) edges (some n)) ↔ i < j ∧ ((i, j) ∈ edges ∨ (j, i) ∈ edges) := by
  obtain ⟨hs, he⟩ := edges2adj_spec (K := K) edges n
  have hc := adj2edges_canonical (edges2adj (K := K) edges (some n))
  rw [hs.1] at hc
  refine ⟨hc, fun i j => ?_⟩
  rw [mem_adj2edges, hs.1]
  constructor
  · rintro ⟨hij, hj, hne⟩
    rw [he i (by omega) j hj] at hne
    refine ⟨hij, ?_⟩
    by_contra hcon
    rw [if_neg hcon] at hne
    exact hne rfl
  · rintro ⟨hij, hm⟩
    have hj : j < n := by
      rcases hm with h' | h'
      · exact (h _ h').2.2
      · exact (h _ h').2.1
    refine ⟨hij, hj, ?_⟩
    rw [he i (by omega) j hj, if_pos hm]
    exact one_ne_zero

theorem canonical_ext {n m : ℕ} {l r : List (ℕ × ℕ)} (hl : CanonicalEdges n l) (hr : CanonicalEdges m r)
    (h : ∀ e, e ∈ l ↔ e ∈ r) : l = r := by
  have hn : ∀ {t : List (ℕ × ℕ)}, t.Pairwise PairLt → t.Nodup := by
    intro t ht
    refine ht.imp ?_
    rintro ⟨a, b⟩ ⟨c, d⟩ hlt heq
    simp only [Prod.mk.injEq] at heq
    obtain ⟨rfl, rfl⟩ := heq
    rcases hlt with h | ⟨-, h⟩ <;> simp at h
  have hp : l.Perm r := (List.perm_ext_iff_of_nodup (hn hl.2) (hn hr.2)).mpr h
  refine hp.eq_of_pairwise ?_ hl.2 hr.2
  rintro ⟨a, b⟩ ⟨c, d⟩ - - h1 h2
  unfold PairLt at h1 h2
  simp only [] at h1 h2
  omega

/-- **C57, round trip of edge lists.** -/
theorem C57_edges_roundtrip (n : ℕ) (edges : List (ℕ × ℕ)) (h : CanonicalEdges n edges) :
    adj2edges (edges2adj (K := K) edges (some n)) = edges := by
  have hsimple : SimpleEdges n edges := fun e he => by
    have := h.1 e he
    exact ⟨by omega, by omega, by omega⟩
  obtain ⟨hc, hm⟩ := C57_edge_set (K := K) n edges hsimple
  refine canonical_ext hc h ?_
  rintro ⟨i, j⟩
  rw [hm]
  constructor
  · rintro ⟨hij, h' | h'⟩
    · exact h'
    · have := (h.1 _ h').1
      simp only [] at this
      omega
  · intro h'
    exact ⟨(h.1 _ h').1, .inl h'⟩

theorem square_ext {n : ℕ} {a b : List (List K)} (ha : Square n a) (hb : Square n b)
    (h : ∀ i < n, ∀ j < n, adjEntry a i j = adjEntry b i j) : a = b := by
  apply List.ext_getElem (by rw [ha.1, hb.1])
  intro i h1 h2
  have la : (a[i]).length = n := ha.2 _ (List.getElem_mem _)
  have lb : (b[i]).length = n := hb.2 _ (List.getElem_mem _)
  apply List.ext_getElem (by rw [la, lb])
  intro j h3 h4
  have := h i (by rw [← ha.1]; exact h1) j (by omega)
  unfold adjEntry at this
  rw [List.getD_eq_getElem a _ h1, List.getD_eq_getElem b _ h2, List.getD_eq_getElem _ _ h3, List.getD_eq_getElem _ _ h4] at this
  exact this

/-- **C57, round trip of matrices.** -/
theorem C57_matrix_roundtrip (n : ℕ) (a : List (List K)) (h : AdjacencyOf n a) : edges2adj (adj2edges a) (some n) = a := by
  obtain ⟨hs, he⟩ := edges2adj_spec (K := K) (adj2edges a) n
  refine square_ext hs ⟨h.rows, h.cols⟩ ?_
  intro i hi j hj
  rw [he i hi j hj]
  simp only [mem_adj2edges, h.rows]
  rcases h.zeroOne i hi j hj with hz | hz
  · have hz' : adjEntry a j i = 0 := by rw [← h.symm i hi j hj]; exact hz
    simp [hz, hz']
  · have hz' : adjEntry a j i = 1 := by rw [← h.symm i hi j hj]; exact hz
    have hne : i ≠ j := by
      rintro rfl
      rw [h.diag i hi] at hz
      exact zero_ne_one hz
    rw [if_pos, hz]
    rw [hz, hz']
    have : i < j ∨ j < i := by omega
    rcases this with h1 | h1
    · exact .inl ⟨h1, hj, one_ne_zero⟩
    · exact .inr ⟨h1, hi, one_ne_zero⟩

theorem indicator_ext {v w : K} {p q : Prop} (hv : v = 0 ∨ v = 1) (hw : w = 0 ∨ w = 1) (hp : v = 1 ↔ p) (hq : w = 1 ↔ q)
    (h : p ↔ q) : v = w := by
  have : v = 1 ↔ w = 1 := by rw [hp, hq, h]
  rcases hv with rfl | rfl <;> rcases hw with rfl | rfl <;> simp_all

/-- **C57, same lattice.** The indicator from the edge list and the indicator from its adjacency matrix are the same
function, also in raising. -/
theorem C57_same_indicator (n : ℕ) (edges : List (ℕ × ℕ)) (h : SimpleEdges n edges) (x : Fin dim → K)
    (nodes : List (Fin dim → K)) (r : K) :
    universalGraph x nodes edges r = universalGraphAdj x nodes (edges2adj edges (some n)) r := by
  by_cases hr : 0 ≤ r
  · obtain ⟨v, hv, hv01, hv1⟩ := C76_indicator x nodes edges r hr
    obtain ⟨w, hw, hw01, hw1⟩ := C76_indicator_adj x nodes (edges2adj edges (some n)) r hr
    obtain ⟨hs, he⟩ := edges2adj_spec (K := K) edges n
    rw [hv, hw]
    congr 1
    refine indicator_ext hv01 hw01 hv1 hw1 ?_
    constructor
    · rintro ⟨i, j, hm, hn⟩
      obtain ⟨h1, h2, h3⟩ := h _ hm
      simp only [] at h1 h2 h3
      rcases Nat.lt_or_gt_of_ne h1 with hij | hij
      · refine ⟨i, j, ⟨hij, by rw [hs.1]; exact h3, ?_⟩, hn⟩
        rw [he i h2 j h3, if_pos (.inl hm)]; exact one_ne_zero
      · refine ⟨j, i, ⟨hij, by rw [hs.1]; exact h2, ?_⟩, near_symm hn⟩
        rw [he j h3 i h2, if_pos (.inr hm)]; exact one_ne_zero
    · rintro ⟨i, j, ⟨hij, hj, hne⟩, hn⟩
      rw [hs.1] at hj
      rw [he i (by omega) j hj] at hne
      by_cases hm : (i, j) ∈ edges ∨ (j, i) ∈ edges
      · rcases hm with hm | hm
        · exact ⟨i, j, hm, hn⟩
        · exact ⟨j, i, hm, near_symm hn⟩
      · rw [if_neg hm] at hne
        exact absurd rfl hne
  · obtain ⟨h1, h2⟩ := C76_negative_radius x nodes edges (edges2adj edges (some n)) r (not_le.mp hr)
    rw [h1, h2]

/-- The same from the matrix side, for every square array (symmetric or not). -/
theorem C57_same_indicator_adj (a : List (List K)) (x : Fin dim → K) (nodes : List (Fin dim → K)) (r : K) :
    universalGraphAdj x nodes a r = universalGraph x nodes (adj2edges a) r := by
  by_cases hr : 0 ≤ r
  · obtain ⟨v, hv, hv01, hv1⟩ := C76_indicator x nodes (adj2edges a) r hr
    obtain ⟨w, hw, hw01, hw1⟩ := C76_indicator_adj x nodes a r hr
    rw [hv, hw]
    congr 1
    refine indicator_ext hw01 hv01 hw1 hv1 ?_
    simp only [mem_adj2edges]
  · obtain ⟨h1, h2⟩ := C76_negative_radius x nodes (adj2edges a) a r (not_le.mp hr)
    rw [h1, h2]

end

/-! Outside simple undirected graphs the two descriptions differ. -/

/-- A loop is a ball around its node in the edge list and nothing in the matrix. -/
theorem C57_loop_lost :
    universalGraph (fun _ : Fin 1 => (0 : ℚ)) [fun _ => 0] [(0, 0)] 1 = .ok 1 ∧
      universalGraphAdj (fun _ : Fin 1 => (0 : ℚ)) [fun _ => 0] (edges2adj [(0, 0)] (some 1)) 1 = .ok 0 := by
  decide +kernel

/-- An edge entered only below the diagonal is ignored. -/
theorem C57_lower_triangle_ignored : adj2edges ([[0, 0], [1, 0]] : List (List ℚ)) = [] := by decide +kernel

/-- Without `num_nodes` the size is inferred from the edges: trailing nodes without an edge disappear. -/
theorem C57_isolated_node_lost :
    edges2adj (adj2edges ([[0, 1, 0], [1, 0, 0], [0, 0, 0]] : List (List ℚ))) none = ([[0, 1], [1, 0]] : List (List ℚ)) := by decide +kernel

/-- A graph with a repeated, reversed edge. -/
example : SimpleEdges 4 [(2, 0), (0, 2), (3, 1)] ∧
    adj2edges (edges2adj (K := ℚ) [(2, 0), (0, 2), (3, 1)] (some 4)) = [(0, 2), (1, 3)] := by
  unfold SimpleEdges; decide +kernel

example : CanonicalEdges 4 [(0, 2), (1, 3)] := by
  unfold CanonicalEdges PairLt; decide

example : AdjacencyOf 3 ([[0, 1, 0], [1, 0, 1], [0, 1, 0]] : List (List ℚ)) :=
  ⟨rfl, by decide, by decide +kernel, by decide +kernel, by decide +kernel⟩

example : universalGraph (fun _ : Fin 2 => (1 : ℚ)) [fun _ => 0, fun i => if i = 0 then 4 else 0] [(0, 1)] 1 = .ok 1 ∧
    universalGraph (fun _ : Fin 2 => (2 : ℚ)) [fun _ => 0, fun i => if i = 0 then 4 else 0] [(0, 1)] 1 = .ok 0 := by
  decide +kernel

end Verif.Props
