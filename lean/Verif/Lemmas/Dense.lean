import Verif.Lemmas.Layout
import Mathlib.Algebra.BigOperators.Group.Finset.Basic
import Mathlib.Data.List.Flatten

/-! # Dense meaning of the assembled CSR (proof machinery) -/

namespace Verif.Model

section
variable {R : Type*} [AddCommMonoid R]

theorem sum_range_list (f : ℕ → R) (n : ℕ) :
    ((List.range n).map f).sum = ∑ a ∈ Finset.range n, f a := by
  induction n with
  | zero => simp
  | succ n ih => rw [List.range_succ, List.map_append, List.sum_append, ih, Finset.sum_range_succ]; simp

theorem zip_eq_range_map {α β : Type*} (da : α) (db : β) (as : List α) (bs : List β)
    (h : as.length = bs.length) :
    as.zip bs = (List.range as.length).map (fun k => (as.getD k da, bs.getD k db)) := by
  apply List.ext_getElem
  · simp [h]
  · intro k h1 h2
    have hk : k < as.length := by simpa using h2
    have hk2 : k < bs.length := by omega
    simp [List.getD_eq_getElem?_getD, hk, hk2]

theorem segSumAt_zip_range (ids : List ℕ) (vals : List R) (h : ids.length = vals.length) (s : ℕ) :
    segSumAt (ids.zip vals) s
      = ∑ k ∈ Finset.range ids.length, if ids.getD k 0 = s then vals.getD k 0 else 0 := by
  rw [segSumAt_eq_sum, zip_eq_range_map 0 0 ids vals h, List.map_map, ← sum_range_list]
  rfl

/-- Keys of one element's local matrix entries, row-major. -/
def elemKeys (n : ℕ) (d : List ℕ) : List ℕ :=
  (d.map (fun r => d.map (fun c => r * n + c))).flatten

theorem elemKeys_length (n : ℕ) (d : List ℕ) : (elemKeys n d).length = d.length * d.length := by
  unfold elemKeys
  rw [flatten_length_uniform d.length]
  · simp
  · intro xs hx; simp only [List.mem_map] at hx; obtain ⟨a, _, rfl⟩ := hx; simp

theorem map_eq_range_map {α β : Type*} (da : α) (f : α → β) (as : List α) :
    as.map f = (List.range as.length).map (fun k => f (as.getD k da)) := by
  apply List.ext_getElem
  · simp
  · intro k h1 h2
    have hk : k < as.length := by simpa using h2
    simp [List.getD_eq_getElem?_getD, hk]

/-- Reduction of one element's entries by key. -/
theorem segSumAt_elem (n : ℕ) (d : List ℕ) (jac : List R) (hj : jac.length = d.length * d.length)
    (hd : ∀ x ∈ d, x < n) {i j : ℕ} (hjn : j < n) :
    segSumAt ((elemKeys n d).zip jac) (i * n + j)
      = ∑ a ∈ Finset.range d.length, ∑ b ∈ Finset.range d.length,
          if d.getD a 0 = i ∧ d.getD b 0 = j then jac.getD (a * d.length + b) 0 else 0 := by
  have hr := reshapeRows_flatten d.length d.length jac hj
  conv_lhs => rw [← hr]
  unfold elemKeys
  rw [zip_flatten]
  · rw [segSumAt_flatten, List.map_map]
    rw [map_eq_range_map 0 (fun r => d.map (fun c => r * n + c)) d]
    unfold reshapeRows
    rw [List.zip_map', List.map_map, sum_range_list]
    apply Finset.sum_congr rfl
    intro a ha
    have ha' : a < d.length := by simpa using ha
    have hle : a * d.length + d.length ≤ jac.length := by
      rw [hj]
      calc a * d.length + d.length = (a + 1) * d.length := by ring
        _ ≤ _ := Nat.mul_le_mul_right _ ha'
    simp only [Function.comp]
    rw [segSumAt_zip_range]
    · simp only [List.length_map]
      apply Finset.sum_congr rfl
      intro b hb
      have hb' : b < d.length := by simpa using hb
      have e1 : (d.map (fun c => d.getD a 0 * n + c)).getD b 0 = d.getD a 0 * n + d.getD b 0 := by
        simp [List.getD_eq_getElem?_getD, hb']
      have e2 : ((jac.drop (a * d.length)).take d.length).getD b 0
          = jac.getD (a * d.length + b) 0 := by
        simp [List.getD_eq_getElem?_getD, hb']
      rw [e1, e2]
      have hbn : d.getD b 0 < n := by
        rw [List.getD_eq_getElem _ _ hb']; exact hd _ (List.getElem_mem hb')
      have : (d.getD a 0 * n + d.getD b 0 = i * n + j) ↔ (d.getD a 0 = i ∧ d.getD b 0 = j) := by
        constructor
        · exact key_inj hjn hbn
        · rintro ⟨rfl, rfl⟩; rfl
      simp only [this]
    · simp; omega
  · apply forall₂_length_of_uniform d.length
    · simp
    · intro xs hx; simp only [List.mem_map] at hx; obtain ⟨a, _, rfl⟩ := hx; simp
    · exact reshapeRows_mem_length _ _ _ hj

theorem zipWith_flatten {α β γ : Type*} (f : α → β → γ) (ass : List (List α)) (bss : List (List β))
    (h : List.Forall₂ (fun a b => a.length = b.length) ass bss) :
    List.zipWith f ass.flatten bss.flatten = (List.zipWith (List.zipWith f) ass bss).flatten := by
  induction h with
  | nil => rfl
  | cons hab h ih => simp [List.zipWith_append hab, ih]

theorem coordKeys_inds (n : ℕ) (inds : List (List ℕ)) :
    coordKeys n (rowsOfInds inds) (colsOfInds inds) = (inds.map (elemKeys n)).flatten := by
  unfold coordKeys rowsOfInds colsOfInds
  rw [zipWith_flatten]
  · congr 1
    rw [List.zipWith_map, List.zipWith_self]
    apply List.map_congr_left
    intro d _
    rw [zipWith_flatten]
    · unfold elemKeys
      congr 1
      rw [List.zipWith_map, List.zipWith_self]
      apply List.map_congr_left
      intro r _
      rw [List.zipWith_map_left, List.zipWith_self]
    · apply forall₂_length_of_uniform d.length
      · simp
      · intro xs hx; simp only [List.mem_map] at hx; obtain ⟨a, _, rfl⟩ := hx; simp
      · intro xs hx; simp only [List.mem_map] at hx; obtain ⟨a, _, rfl⟩ := hx; rfl
  · rw [List.forall₂_map_left_iff, List.forall₂_map_right_iff, List.forall₂_same]
    intro d _
    rw [flatten_length_uniform d.length, flatten_length_uniform d.length]
    · simp
    · intro xs hx; simp only [List.mem_map] at hx; obtain ⟨a, _, rfl⟩ := hx; rfl
    · intro xs hx; simp only [List.mem_map] at hx; obtain ⟨a, _, rfl⟩ := hx; simp

theorem rowsOfInds_length (inds : List (List ℕ)) :
    (rowsOfInds inds).length = (colsOfInds inds).length := by
  unfold rowsOfInds colsOfInds
  rw [List.length_flatten, List.length_flatten, List.map_map, List.map_map]
  congr 1
  apply List.map_congr_left
  intro d _
  simp only [Function.comp]
  rw [flatten_length_uniform d.length, flatten_length_uniform d.length]
  · simp
  · intro xs hx; simp only [List.mem_map] at hx; obtain ⟨a, _, rfl⟩ := hx; rfl
  · intro xs hx; simp only [List.mem_map] at hx; obtain ⟨a, _, rfl⟩ := hx; simp

/-- Reduction by key over a list of elements is the specified double sum. -/
theorem segSumAt_elems (n : ℕ) (elems : List (Spec.Elem R))
    (hj : ∀ e ∈ elems, e.jac.length = e.dofs.length * e.dofs.length)
    (hd : ∀ e ∈ elems, ∀ x ∈ e.dofs, x < n) {i j : ℕ} (hjn : j < n) :
    segSumAt (((elems.map (fun e => elemKeys n e.dofs)).flatten).zip
        ((elems.map (fun e => e.jac)).flatten)) (i * n + j)
      = Spec.assembledMat elems i j := by
  rw [zip_flatten]
  · rw [segSumAt_flatten, List.map_map, List.zip_map', List.map_map]
    unfold Spec.assembledMat
    congr 1
    apply List.map_congr_left
    intro e he
    simp only [Function.comp]
    exact segSumAt_elem n e.dofs e.jac (hj e he) (hd e he) hjn
  · rw [List.forall₂_map_left_iff, List.forall₂_map_right_iff, List.forall₂_same]
    intro e he
    rw [elemKeys_length, hj e he]

theorem segSumAt_elems_res (elems : List (Spec.Elem R))
    (hr : ∀ e ∈ elems, e.res.length = e.dofs.length) (i : ℕ) :
    segSumAt (((elems.map (fun e => e.dofs)).flatten).zip
        ((elems.map (fun e => e.res)).flatten)) i
      = Spec.assembledVec elems i := by
  rw [zip_flatten]
  · rw [segSumAt_flatten, List.map_map, List.zip_map', List.map_map]
    unfold Spec.assembledVec
    congr 1
    apply List.map_congr_left
    intro e he
    simp only [Function.comp]
    exact segSumAt_zip_range _ _ (hr e he).symm i
  · rw [List.forall₂_map_left_iff, List.forall₂_map_right_iff, List.forall₂_same]
    intro e he
    rw [hr e he]

theorem sum_filter_beq {α : Type*} [DecidableEq α] (u : List α) (a : α) (g : α → R) :
    ((u.filter (fun k => k == a)).map g).sum = (u.map (fun k => if k = a then g k else 0)).sum := by
  induction u with
  | nil => rfl
  | cons x xs ih => by_cases h : x = a <;> simp [h, ← ih]

/-! ## Dense value of a CSR built from sorted unique keys -/

theorem todense_of_keys (n : ℕ) (u : List ℕ) (hu : u.Pairwise (· < ·)) (hub : ∀ k ∈ u, k / n < n)
    (f : ℕ → R) {i j : ℕ} (hi : i < n) (hj : j < n) :
    (CSRMatrix.mk (u.map f) (ptrOfRows n (u.map (· / n))) (u.map (· % n)) n n).todense i j
      = if i * n + j ∈ u then f (i * n + j) else 0 := by
  have hrows : (CSRMatrix.mk (u.map f) (ptrOfRows n (u.map (· / n))) (u.map (· % n)) n n).rowOfSlot
      = u.map (· / n) := by
    apply repeatByPtr_ptrOfRows
    · rw [List.pairwise_map]
      exact hu.imp (fun {a b} h => Nat.div_le_div_right h.le)
    · intro r hr
      simp only [List.mem_map] at hr
      obtain ⟨k, hk, rfl⟩ := hr
      exact hub k hk
  unfold CSRMatrix.todense
  rw [hrows]
  simp only [hi, hj, and_self, if_true]
  rw [List.zip_map', List.zip_map', List.filter_map, List.map_map]
  have e : u.filter ((fun p : (ℕ × ℕ) × R => p.1 == (i, j)) ∘ fun k => ((k / n, k % n), f k))
      = u.filter (fun k => k == i * n + j) := by
    apply List.filter_congr
    intro k _
    simp only [Function.comp]
    rw [Bool.eq_iff_iff]
    simp only [beq_iff_eq, Prod.mk.injEq]
    constructor
    · rintro ⟨rfl, rfl⟩
      rw [Nat.mul_comm]; exact (Nat.div_add_mod k n).symm
    · rintro rfl
      exact ⟨key_div hj, key_mod hj⟩
  rw [e]
  have hnd : u.Nodup := hu.imp (fun h => Nat.ne_of_lt h)
  split_ifs with h
  · rw [sum_filter_beq, sum_map_ite_single hnd h]; rfl
  · rw [sum_filter_beq, sum_map_ite_none h]

end

end Verif.Model
