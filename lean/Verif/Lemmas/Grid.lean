import Verif.Model.Grid
import Mathlib.Data.List.Sort
import Mathlib.Tactic.Ring
import Mathlib.Tactic.Linarith

/-!
# Index arithmetic and `np.unique`
-/

namespace Verif.Lemmas

open Verif.Model

theorem mem_unique {xs : List ℕ} {a : ℕ} : a ∈ unique xs ↔ a ∈ xs := by
  unfold unique
  rw [(List.perm_insertionSort _ _).mem_iff, List.mem_dedup]

theorem unique_lt (xs : List ℕ) : (unique xs).Pairwise (· < ·) := by
  unfold unique
  have h1 : ((xs.dedup).insertionSort (· ≤ ·)).Pairwise (· ≤ ·) := List.pairwise_insertionSort _ _
  have h2 : ((xs.dedup).insertionSort (· ≤ ·)).Nodup :=
    (List.perm_insertionSort _ _).nodup_iff.2 (List.nodup_dedup xs)
  exact (h1.and h2).imp fun h => lt_of_le_of_ne h.1 h.2

theorem sorted_ext {xs ys : List ℕ} (hx : xs.Pairwise (· < ·)) (hy : ys.Pairwise (· < ·))
    (h : ∀ a, a ∈ xs ↔ a ∈ ys) : xs = ys := by
  apply List.Perm.eq_of_pairwise (le := (· < ·)) _ hx hy
  · rw [List.perm_ext_iff_of_nodup (hx.imp fun h => h.ne) (hy.imp fun h => h.ne)]
    exact h
  · intro a b _ _ h1 h2
    omega

theorem unique_ext {xs ys : List ℕ} (h : ∀ a, a ∈ xs ↔ a ∈ ys) : unique xs = unique ys :=
  sorted_ext (unique_lt xs) (unique_lt ys) fun a => by rw [mem_unique, mem_unique]; exact h a

theorem unique_of_sorted {xs : List ℕ} (hx : xs.Pairwise (· < ·)) : unique xs = xs :=
  sorted_ext (unique_lt xs) hx fun _ => mem_unique

/-- Decoding `(a*m + b)*n + c`. -/
theorem lin_decode (m n a b c : ℕ) (hb : b < m) (hc : c < n) :
    ((a * m + b) * n + c) / (m * n) = a ∧ ((a * m + b) * n + c) % (m * n) = b * n + c ∧
    (b * n + c) / n = b ∧ (b * n + c) % n = c := by
  have hn : 0 < n := by omega
  have hlt : b * n + c < m * n := by
    calc b * n + c < b * n + n := by omega
      _ = (b + 1) * n := by ring
      _ ≤ m * n := Nat.mul_le_mul_right n hb
  have e : (a * m + b) * n + c = (b * n + c) + (m * n) * a := by ring
  refine ⟨?_, ?_, ?_, ?_⟩
  · rw [e, Nat.add_mul_div_left _ _ (by omega), Nat.div_eq_of_lt hlt, zero_add]
  · rw [e, Nat.add_mul_mod_self_left, Nat.mod_eq_of_lt hlt]
  · rw [show b * n + c = c + n * b by ring, Nat.add_mul_div_left _ _ hn, Nat.div_eq_of_lt hc, zero_add]
  · rw [show b * n + c = c + n * b by ring, Nat.add_mul_mod_self_left, Nat.mod_eq_of_lt hc]

theorem lin_lt (l m n a b c : ℕ) (ha : a < l) (hb : b < m) (hc : c < n) : (a * m + b) * n + c < l * m * n := by
  have h1 : a * m + b < l * m := by
    calc a * m + b < a * m + m := by omega
      _ = (a + 1) * m := by ring
      _ ≤ l * m := Nat.mul_le_mul_right m ha
  calc (a * m + b) * n + c < (a * m + b) * n + n := by omega
    _ = (a * m + b + 1) * n := by ring
    _ ≤ l * m * n := Nat.mul_le_mul_right n h1

/-- Encoding the decoded triple; the triple is in range. -/
theorem lin_encode (l m n e : ℕ) (he : e < l * m * n) :
    (e / (m * n) * m + e % (m * n) / n) * n + e % (m * n) % n = e ∧
    e / (m * n) < l ∧ e % (m * n) / n < m ∧ e % (m * n) % n < n := by
  have hmn : 0 < m * n := by
    rcases Nat.eq_zero_or_pos (m * n) with h | h
    · rw [Nat.mul_assoc, h] at he; simp at he
    · exact h
  have hn : 0 < n := Nat.pos_of_mul_pos_left hmn
  have h1 := Nat.div_add_mod e (m * n)
  have h2 := Nat.div_add_mod (e % (m * n)) n
  refine ⟨?_, ?_, ?_, Nat.mod_lt _ hn⟩
  · calc (e / (m * n) * m + e % (m * n) / n) * n + e % (m * n) % n
        = m * n * (e / (m * n)) + (n * (e % (m * n) / n) + e % (m * n) % n) := by ring
      _ = e := by rw [h2, h1]
  · rw [Nat.div_lt_iff_lt_mul hmn, ← Nat.mul_assoc]; exact he
  · rw [Nat.div_lt_iff_lt_mul hn]; exact Nat.mod_lt _ hmn

theorem lin_inj {m n a b c a' b' c' : ℕ} (hb : b < m) (hc : c < n) (hb' : b' < m) (hc' : c' < n)
    (h : (a * m + b) * n + c = (a' * m + b') * n + c') : a = a' ∧ b = b' ∧ c = c' := by
  obtain ⟨h1, h2, h3, h4⟩ := lin_decode m n a b c hb hc
  obtain ⟨k1, k2, k3, k4⟩ := lin_decode m n a' b' c' hb' hc'
  rw [h] at h1 h2
  rw [k1] at h1
  rw [k2] at h2
  rw [← h2] at h3 h4
  rw [k3] at h3
  rw [k4] at h4
  exact ⟨h1.symm, h3.symm, h4.symm⟩

theorem cellIjk_cellId (g : Grid) (c : ℕ × ℕ × ℕ) (h2 : c.2.1 < g.ny) (h3 : c.2.2 < g.nz) :
    g.cellIjk (g.cellId c) = c := by
  obtain ⟨a, b, d⟩ := c
  obtain ⟨h1, h4, h5, h6⟩ := lin_decode g.ny g.nz a b d h2 h3
  unfold Grid.cellIjk Grid.cellId
  simp only [h1, h4, h5, h6]

theorem cellId_lt (g : Grid) (c : ℕ × ℕ × ℕ) (h1 : c.1 < g.nx) (h2 : c.2.1 < g.ny) (h3 : c.2.2 < g.nz) :
    g.cellId c < g.numCells := lin_lt _ _ _ _ _ _ h1 h2 h3

theorem cellId_cellIjk (g : Grid) (e : ℕ) (he : e < g.numCells) :
    g.cellId (g.cellIjk e) = e ∧ (g.cellIjk e).1 < g.nx ∧ (g.cellIjk e).2.1 < g.ny ∧ (g.cellIjk e).2.2 < g.nz := by
  obtain ⟨h1, h2, h3, h4⟩ := lin_encode g.nx g.ny g.nz e he
  exact ⟨h1, h2, h3, h4⟩

theorem cellToNodes_eq (g : Grid) (e : ℕ) :
    g.cellToNodes e = hexOffsets.map fun o =>
      g.nodeId ((g.cellIjk e).1 + o.1, (g.cellIjk e).2.1 + o.2.1, (g.cellIjk e).2.2 + o.2.2) := rfl

theorem hexOffsets_le {o : ℕ × ℕ × ℕ} (h : o ∈ hexOffsets) : o.1 ≤ 1 ∧ o.2.1 ≤ 1 ∧ o.2.2 ≤ 1 := by
  have : ∀ o ∈ hexOffsets, o.1 ≤ 1 ∧ o.2.1 ≤ 1 ∧ o.2.2 ≤ 1 := by decide
  exact this o h

theorem mem_hexOffsets {a b c : ℕ} (ha : a ≤ 1) (hb : b ≤ 1) (hc : c ≤ 1) : (a, b, c) ∈ hexOffsets := by
  have h1 : a = 0 ∨ a = 1 := by omega
  have h2 : b = 0 ∨ b = 1 := by omega
  have h3 : c = 0 ∨ c = 1 := by omega
  rcases h1 with rfl | rfl <;> rcases h2 with rfl | rfl <;> rcases h3 with rfl | rfl <;> decide

theorem nodeId_inj (g : Grid) {p q : ℕ × ℕ × ℕ} (hp2 : p.2.1 ≤ g.ny) (hp3 : p.2.2 ≤ g.nz) (hq2 : q.2.1 ≤ g.ny)
    (hq3 : q.2.2 ≤ g.nz) (h : g.nodeId p = g.nodeId q) : p = q := by
  obtain ⟨a, b, c⟩ := p
  obtain ⟨a', b', c'⟩ := q
  obtain ⟨h1, h2, h3⟩ := lin_inj (m := g.ny + 1) (n := g.nz + 1) (Nat.lt_succ_of_le hp2) (Nat.lt_succ_of_le hp3)
    (Nat.lt_succ_of_le hq2) (Nat.lt_succ_of_le hq3) h
  simp only at h1 h2 h3
  rw [h1, h2, h3]

theorem nodeIjk_nodeId (g : Grid) (p : ℕ × ℕ × ℕ) (h2 : p.2.1 ≤ g.ny) (h3 : p.2.2 ≤ g.nz) :
    g.nodeIjk (g.nodeId p) = p := by
  obtain ⟨a, b, d⟩ := p
  obtain ⟨h1, h4, h5, h6⟩ := lin_decode (g.ny + 1) (g.nz + 1) a b d (Nat.lt_succ_of_le h2) (Nat.lt_succ_of_le h3)
  unfold Grid.nodeIjk Grid.nodeId
  simp only [h1, h4, h5, h6]

/-- The nodes of an in-range cell, as index triples. -/
theorem mem_cellToNodes (g : Grid) {e : ℕ} (he : e < g.numCells) {i j k : ℕ} (hj : j ≤ g.ny) (hk : k ≤ g.nz) :
    g.nodeId (i, j, k) ∈ g.cellToNodes e ↔
      ((g.cellIjk e).1 ≤ i ∧ i ≤ (g.cellIjk e).1 + 1) ∧ ((g.cellIjk e).2.1 ≤ j ∧ j ≤ (g.cellIjk e).2.1 + 1) ∧
      ((g.cellIjk e).2.2 ≤ k ∧ k ≤ (g.cellIjk e).2.2 + 1) := by
  obtain ⟨_, h1, h2, h3⟩ := cellId_cellIjk g e he
  rw [cellToNodes_eq, List.mem_map]
  constructor
  · rintro ⟨o, ho, h⟩
    obtain ⟨o1, o2, o3⟩ := hexOffsets_le ho
    have := nodeId_inj g (p := ((g.cellIjk e).1 + o.1, (g.cellIjk e).2.1 + o.2.1, (g.cellIjk e).2.2 + o.2.2))
      (q := (i, j, k)) (by simp only; omega) (by simp only; omega) hj hk h
    simp only [Prod.mk.injEq] at this
    omega
  · rintro ⟨⟨a1, a2⟩, ⟨b1, b2⟩, ⟨c1, c2⟩⟩
    refine ⟨(i - (g.cellIjk e).1, j - (g.cellIjk e).2.1, k - (g.cellIjk e).2.2),
      mem_hexOffsets (by omega) (by omega) (by omega), ?_⟩
    congr 2
    · simp only; omega
    · simp only; congr 1 <;> omega

theorem searchsorted_sorted {xs : List ℕ} (hx : xs.Pairwise (· < ·)) {a : ℕ} (ha : a ∈ xs) :
    xs[searchsorted xs a]? = some a := by
  unfold searchsorted
  induction xs with
  | nil => simp at ha
  | cons x rest ih =>
    rw [List.pairwise_cons] at hx
    by_cases h : x < a
    · rw [List.takeWhile_cons_of_pos (by simpa using h), List.length_cons, List.getElem?_cons_succ]
      apply ih hx.2
      rcases List.mem_cons.1 ha with h' | h'
      · omega
      · exact h'
    · rw [List.takeWhile_cons_of_neg (by simpa using h)]
      rcases List.mem_cons.1 ha with h' | h'
      · simp [h']
      · exact absurd (hx.1 a h') h

end Verif.Lemmas
