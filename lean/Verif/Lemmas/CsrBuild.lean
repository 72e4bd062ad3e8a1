import Verif.Model.Csr
import Verif.Lemmas.Arr
import Mathlib.Data.List.Count
import Mathlib.Data.List.GetD
import Mathlib.Algebra.Order.BigOperators.Group.List

/-! # Facts about the CSR structure builder (proof machinery) -/

namespace Verif.Model

/-! ## Run-length structure of a sorted key list -/

/-- `is_new` relative to a previous key. -/
def newFrom : ℕ → List ℕ → List Bool
  | _, [] => []
  | p, y :: ys => decide (y ≠ p) :: newFrom y ys

/-- Unique keys after a previous key. -/
def uniqFrom : ℕ → List ℕ → List ℕ
  | _, [] => []
  | p, y :: ys => if y ≠ p then y :: uniqFrom y ys else uniqFrom y ys

/-- Segment ids after a previous key with id `k`. -/
def segFrom : ℕ → ℕ → List ℕ → List ℕ
  | _, _, [] => []
  | k, p, y :: ys =>
    (if y ≠ p then k + 1 else k) :: segFrom (if y ≠ p then k + 1 else k) y ys

theorem zipWith_newFrom (p : ℕ) (ys : List ℕ) :
    List.zipWith (fun a b => decide (a ≠ b)) ys (p :: ys).dropLast = newFrom p ys := by
  induction ys generalizing p with
  | nil => rfl
  | cons y ys ih =>
    have := ih y
    simp only [List.dropLast_cons_cons, List.zipWith_cons_cons, newFrom]
    rw [this]

theorem isNew_cons (x : ℕ) (xs : List ℕ) : isNew (x :: xs) = true :: newFrom x xs := by
  simp only [isNew, zipWith_newFrom]

theorem compress_newFrom (p : ℕ) (ys : List ℕ) : compress ys (newFrom p ys) = uniqFrom p ys := by
  induction ys generalizing p with
  | nil => rfl
  | cons y ys ih =>
    have := ih y
    simp only [compress] at this
    by_cases h : y = p <;> simp [compress, newFrom, uniqFrom, h] <;> simpa [h] using this

theorem compress_isNew_cons (x : ℕ) (xs : List ℕ) :
    compress (x :: xs) (isNew (x :: xs)) = x :: uniqFrom x xs := by
  rw [isNew_cons, ← compress_newFrom]
  simp [compress]

theorem cumsumFrom_newFrom (k p : ℕ) (ys : List ℕ) :
    (cumsumFrom (k + 1) ((newFrom p ys).map Bool.toNat)).map (· - 1) = segFrom k p ys := by
  induction ys generalizing k p with
  | nil => rfl
  | cons y ys ih =>
    by_cases h : y = p
    · subst h; simp [newFrom, cumsumFrom, segFrom, ih]
    · simp [newFrom, cumsumFrom, segFrom, ih, h]

theorem segIdsOf_cons (x : ℕ) (xs : List ℕ) : segIdsOf (x :: xs) = 0 :: segFrom 0 x xs := by
  simp only [segIdsOf, cumsum, isNew_cons, List.map_cons, cumsumFrom, Bool.toNat_true]
  have := cumsumFrom_newFrom 0 x xs
  simp only [Nat.zero_add] at this ⊢
  rw [this]

theorem mem_uniqFrom (p : ℕ) (ys : List ℕ) (z : ℕ) :
    z ∈ p :: uniqFrom p ys ↔ z ∈ p :: ys := by
  induction ys generalizing p with
  | nil => simp [uniqFrom]
  | cons y ys ih =>
    have := ih y
    by_cases h : y = p
    · subst h
      simp only [uniqFrom, ne_eq, not_true_eq_false, if_false]
      rw [this]; simp
    · simp only [uniqFrom, ne_eq, h, not_false_eq_true, if_true]
      rw [List.mem_cons, this, List.mem_cons (a := z) (b := p)]

theorem uniqFrom_pairwise (p : ℕ) (ys : List ℕ) (h : (p :: ys).Pairwise (· ≤ ·)) :
    (p :: uniqFrom p ys).Pairwise (· < ·) := by
  induction ys generalizing p with
  | nil => simp [uniqFrom]
  | cons y ys ih =>
    rw [List.pairwise_cons] at h
    have hy := ih y h.2
    by_cases e : y = p
    · subst e; simpa [uniqFrom] using hy
    · simp only [uniqFrom, ne_eq, e, not_false_eq_true, if_true]
      rw [List.pairwise_cons]
      refine ⟨?_, hy⟩
      intro z hz
      have hpy : p < y := lt_of_le_of_ne (h.1 y (by simp)) (Ne.symm e)
      rcases List.mem_cons.mp hz with rfl | hz
      · exact hpy
      · exact lt_trans hpy ((List.pairwise_cons.mp hy).1 z hz)

theorem segFrom_spec (k p : ℕ) (ys : List ℕ) :
    List.Forall₂ (fun y s => k ≤ s ∧ s - k < (p :: uniqFrom p ys).length ∧
      (p :: uniqFrom p ys).getD (s - k) 0 = y) ys (segFrom k p ys) := by
  induction ys generalizing k p with
  | nil => exact List.Forall₂.nil
  | cons y ys ih =>
    by_cases e : y = p
    · subst e
      simp only [segFrom, uniqFrom, ne_eq, not_true_eq_false, if_false]
      refine List.Forall₂.cons ?_ (ih k y)
      simp
    · simp only [segFrom, uniqFrom, ne_eq, e, not_false_eq_true, if_true]
      refine List.Forall₂.cons ?_ ?_
      · simp
      · refine (ih (k + 1) y).imp ?_
        rintro z s ⟨h1, h2, h3⟩
        have : s - k = (s - (k + 1)) + 1 := by omega
        refine ⟨by omega, by rw [this]; simpa using h2, ?_⟩
        rw [this, List.getD_cons_succ, h3]

theorem segFrom_getLast (k p : ℕ) (ys : List ℕ) :
    ((k :: segFrom k p ys).getLast?) = some (k + (uniqFrom p ys).length) := by
  induction ys generalizing k p with
  | nil => simp [segFrom, uniqFrom]
  | cons y ys ih =>
    by_cases e : y = p
    · subst e
      have := ih k y
      simp only [segFrom, uniqFrom, ne_eq, not_true_eq_false, if_false]
      rw [List.getLast?_cons_cons, this]
    · have := ih (k + 1) y
      simp only [segFrom, uniqFrom, ne_eq, e, not_false_eq_true, if_true]
      rw [List.getLast?_cons_cons, this]
      simp; omega

/-- The unique keys of a sorted list. -/
def uniq (s : List ℕ) : List ℕ := compress s (isNew s)

theorem uniq_pairwise {s : List ℕ} (h : s.Pairwise (· ≤ ·)) : (uniq s).Pairwise (· < ·) := by
  cases s with
  | nil => simp [uniq, compress]
  | cons x xs => rw [uniq, compress_isNew_cons]; exact uniqFrom_pairwise x xs h

theorem mem_uniq (s : List ℕ) (z : ℕ) : z ∈ uniq s ↔ z ∈ s := by
  cases s with
  | nil => simp [uniq, compress]
  | cons x xs => rw [uniq, compress_isNew_cons]; exact mem_uniqFrom x xs z

theorem segIdsOf_spec (s : List ℕ) :
    List.Forall₂ (fun y i => i < (uniq s).length ∧ (uniq s).getD i 0 = y) s (segIdsOf s) := by
  cases s with
  | nil => exact List.Forall₂.nil
  | cons x xs =>
    rw [uniq, compress_isNew_cons, segIdsOf_cons]
    refine List.Forall₂.cons (by simp) ?_
    refine (segFrom_spec 0 x xs).imp ?_
    rintro y i ⟨_, h2, h3⟩
    exact ⟨by simpa using h2, by simpa using h3⟩

theorem segIdsOf_length (s : List ℕ) : (segIdsOf s).length = s.length :=
  (segIdsOf_spec s).length_eq.symm

/-- Number of stored entries as computed from the last segment id. -/
def nseOf (segIds : List ℕ) : ℕ :=
  match segIds.getLast? with
  | none => 0
  | some s => s + 1

theorem nseOf_segIdsOf (s : List ℕ) : nseOf (segIdsOf s) = (uniq s).length := by
  cases s with
  | nil => rfl
  | cons x xs =>
    rw [uniq, compress_isNew_cons, segIdsOf_cons, nseOf, segFrom_getLast]
    simp

/-! ## Reduction by segment id = reduction by key -/

section
variable {R : Type*} [AddCommMonoid R]

theorem getD_inj_of_nodup {u : List ℕ} (hu : u.Nodup) {i j : ℕ} (hi : i < u.length)
    (hj : j < u.length) (h : u.getD i 0 = u.getD j 0) : i = j := by
  simp only [List.getD_eq_getElem?_getD, List.getElem?_eq_getElem hi,
    List.getElem?_eq_getElem hj, Option.getD_some] at h
  exact (List.Nodup.getElem_inj_iff hu).mp h

/-- Reducing by positions in a duplicate-free list `u` is reducing by the elements of `u`. -/
theorem segSumAt_relabel {u : List ℕ} (hu : u.Nodup) {ks ids : List ℕ} (vals : List R)
    (h : List.Forall₂ (fun y i => i < u.length ∧ u.getD i 0 = y) ks ids)
    {s : ℕ} (hs : s < u.length) :
    segSumAt (ids.zip vals) s = segSumAt (ks.zip vals) (u.getD s 0) := by
  induction h generalizing vals with
  | nil => simp
  | @cons k i ks ids hki h ih =>
    cases vals with
    | nil => simp
    | cons v vals =>
      simp only [List.zip_cons_cons, segSumAt_cons]
      rw [ih]
      congr 1
      have : (i = s) ↔ (k = u.getD s 0) := by
        constructor
        · rintro rfl; exact hki.2.symm
        · intro e
          exact getD_inj_of_nodup hu hki.1 hs (hki.2.trans e)
      simp only [this]

/-- Same, when some ids are out of range because their key is not in `u`. -/
theorem segSumAt_relabel' {u : List ℕ} (hu : u.Nodup) {ks ids : List ℕ} (vals : List R)
    (h : List.Forall₂ (fun y i => (i < u.length ∧ u.getD i 0 = y) ∨ (i = u.length ∧ y ∉ u)) ks ids)
    {s : ℕ} (hs : s < u.length) :
    segSumAt (ids.zip vals) s = segSumAt (ks.zip vals) (u.getD s 0) := by
  induction h generalizing vals with
  | nil => simp
  | @cons k i ks ids hki h ih =>
    cases vals with
    | nil => simp
    | cons v vals =>
      simp only [List.zip_cons_cons, segSumAt_cons]
      rw [ih]
      congr 1
      have : (i = s) ↔ (k = u.getD s 0) := by
        constructor
        · rintro rfl
          rcases hki with hki | hki
          · exact hki.2.symm
          · omega
        · intro e
          rcases hki with hki | hki
          · exact getD_inj_of_nodup hu hki.1 hs (hki.2.trans e)
          · exfalso; apply hki.2; rw [e, List.getD_eq_getElem _ _ hs]; exact List.getElem_mem hs
      simp only [this]

theorem segSumAt_eq_zero {ps : List (ℕ × R)} {s : ℕ} (h : ∀ p ∈ ps, p.1 ≠ s) :
    segSumAt ps s = 0 := by
  unfold segSumAt
  rw [List.filter_eq_nil_iff.mpr]
  · simp
  · intro p hp; simpa using h p hp

end

/-! ## Row pointer -/

theorem cumsumFrom_length (a : ℕ) (xs : List ℕ) : (cumsumFrom a xs).length = xs.length := by
  induction xs generalizing a with
  | nil => rfl
  | cons x xs ih => simp [cumsumFrom, ih]

theorem cumsumFrom_getD (a : ℕ) (xs : List ℕ) (r : ℕ) (hr : r < xs.length) :
    (cumsumFrom a xs).getD r 0 = a + (xs.take (r + 1)).sum := by
  induction xs generalizing a r with
  | nil => simp at hr
  | cons x xs ih =>
    cases r with
    | zero => simp [cumsumFrom]
    | succ r =>
      simp only [cumsumFrom, List.getD_cons_succ, List.take_succ_cons, List.sum_cons]
      rw [ih _ _ (by simpa using hr)]; omega

theorem addAtOne_length (arr idx : List ℕ) : (addAtOne arr idx).length = arr.length := by
  unfold addAtOne
  induction idx generalizing arr with
  | nil => rfl
  | cons i idx ih => rw [List.foldl_cons, ih]; simp

theorem addAtOne_getD (arr idx : List ℕ) (q : ℕ) (hq : q < arr.length) :
    (addAtOne arr idx).getD q 0 = arr.getD q 0 + idx.count q := by
  unfold addAtOne
  induction idx generalizing arr with
  | nil => simp
  | cons i idx ih =>
    rw [List.foldl_cons, ih _ (by simpa using hq), List.count_cons]
    simp only [List.getD_eq_getElem?_getD, List.getElem?_set, beq_iff_eq]
    by_cases e : i = q
    · subst e; simp [hq]; omega
    · simp [e]

theorem addAtOne_zeros (n : ℕ) (idx : List ℕ) :
    addAtOne (List.replicate (n + 1) 0) idx = (List.range (n + 1)).map (fun q => idx.count q) := by
  apply List.ext_getElem
  · simp [addAtOne_length]
  · intro q h1 h2
    have hq : q < n + 1 := by simpa using h2
    have := addAtOne_getD (List.replicate (n + 1) 0) idx q (by simpa using hq)
    rw [List.getD_eq_getElem _ _ h1] at this
    rw [this]
    simp [List.getD_eq_getElem?_getD, hq]

theorem countP_lt_succ (rows : List ℕ) (r : ℕ) :
    rows.countP (· < r) + rows.count r = rows.countP (· < r + 1) := by
  induction rows with
  | nil => simp
  | cons x xs ih =>
    simp only [List.countP_cons, List.count_cons]
    rw [← ih]
    by_cases h1 : x < r
    · have : x ≠ r := by omega
      have : x < r + 1 := by omega
      simp [*]; omega
    · by_cases h2 : x = r
      · subst h2; simp; omega
      · have : ¬ x < r + 1 := by omega
        simp [*]

theorem sum_range_count (rows : List ℕ) (r : ℕ) :
    ((List.range r).map (fun q => rows.count q)).sum = rows.countP (· < r) := by
  induction r with
  | zero => simp
  | succ r ih =>
    rw [List.range_succ, List.map_append, List.sum_append, ih]
    simpa using countP_lt_succ rows r

theorem count_map_succ (rows : List ℕ) (q : ℕ) :
    (rows.map (· + 1)).count (q + 1) = rows.count q := by
  induction rows with
  | nil => rfl
  | cons x xs ih => simp [List.count_cons, ih]

@[simp] theorem ptrOfRows_length (n : ℕ) (rows : List ℕ) :
    (ptrOfRows n rows).length = n + 1 := by
  simp [ptrOfRows, cumsum, cumsumFrom_length, addAtOne_length]

/-- The row pointer counts the slots in earlier rows. -/
theorem ptrOfRows_getD (n : ℕ) (rows : List ℕ) (r : ℕ) (hr : r ≤ n) :
    (ptrOfRows n rows).getD r 0 = rows.countP (· < r) := by
  rw [ptrOfRows, cumsum, cumsumFrom_getD _ _ _ (by rw [addAtOne_length]; simp; omega),
    addAtOne_zeros, ← List.map_take, List.take_range]
  rw [Nat.min_eq_left (by omega), List.range_succ_eq_map]
  simp only [List.map_cons, List.map_map, List.sum_cons, Nat.zero_add]
  have h0 : (rows.map (· + 1)).count 0 = 0 := by
    rw [List.count_eq_zero]; simp
  rw [h0, Nat.zero_add, ← sum_range_count]
  congr 1
  apply List.map_congr_left
  intro q _
  exact count_map_succ rows q

theorem repeatByPtr_ptrOfRows (n : ℕ) (rows : List ℕ) (hs : rows.Pairwise (· ≤ ·))
    (hb : ∀ r ∈ rows, r < n) : repeatByPtr (ptrOfRows n rows) = rows := by
  have e : repeatByPtr (ptrOfRows n rows)
      = ((List.range n).map (fun r => List.replicate (rows.count r) r)).flatten := by
    unfold repeatByPtr
    rw [ptrOfRows_length]
    congr 1
    apply List.map_congr_left
    intro r hr
    have hr' : r < n := by simpa using hr
    rw [ptrOfRows_getD _ _ _ (by omega), ptrOfRows_getD _ _ _ (by omega), ← countP_lt_succ]
    congr 1; omega
  rw [e]
  refine List.Perm.eq_of_pairwise' (r := (· ≤ ·)) ?_ ?_ ?_
  · rw [List.pairwise_flatten]
    constructor
    · intro l hl
      simp only [List.mem_map] at hl
      obtain ⟨r, _, rfl⟩ := hl
      rw [List.pairwise_replicate]; right; rfl
    · rw [List.pairwise_map]
      refine List.Pairwise.imp ?_ (List.pairwise_lt_range (n := n))
      intro a b hab x hx y hy
      rw [List.eq_of_mem_replicate hx, List.eq_of_mem_replicate hy]; exact hab.le
  · exact hs
  · rw [List.perm_iff_count]
    intro a
    rw [List.count_flatten, List.map_map]
    have h1 : (List.map (List.count a ∘ fun r => List.replicate (rows.count r) r)
        (List.range n)) = (List.range n).map (fun r => if r = a then rows.count a else 0) := by
      apply List.map_congr_left
      intro r _
      simp only [Function.comp, List.count_replicate, beq_iff_eq]
      split_ifs with h
      · rw [h]
      · rfl
    rw [h1]
    by_cases ha : a < n
    · exact sum_map_ite_single List.nodup_range (by simpa using ha) (fun _ => rows.count a)
    · have : rows.count a = 0 := by
        rw [List.count_eq_zero]; intro hm; exact ha (hb a hm)
      rw [this]; simp

/-! ## `searchsorted` on a strictly increasing list -/

theorem searchsorted_mem {u : List ℕ} (hu : u.Pairwise (· < ·)) {k : ℕ} (hk : k ∈ u) :
    searchsorted u k < u.length ∧ u.getD (searchsorted u k) 0 = k := by
  unfold searchsorted
  induction u with
  | nil => simp at hk
  | cons x xs ih =>
    rw [List.pairwise_cons] at hu
    rcases List.mem_cons.mp hk with rfl | hk
    · simp
    · have hx := hu.1 k hk
      have := ih hu.2 hk
      rw [List.takeWhile_cons_of_pos (by simpa using hx)]
      simpa using this

theorem searchsorted_le (u : List ℕ) (k : ℕ) : searchsorted u k ≤ u.length :=
  (List.takeWhile_sublist _).length_le

theorem fullSlotOf_spec {u : List ℕ} (hu : u.Pairwise (· < ·)) (k : ℕ) :
    (fullSlotOf u u.length k < u.length ∧ u.getD (fullSlotOf u u.length k) 0 = k) ∨
    (fullSlotOf u u.length k = u.length ∧ k ∉ u) := by
  by_cases h0 : 0 < u.length
  · by_cases hk : k ∈ u
    · left
      have := searchsorted_mem hu hk
      have e : min (searchsorted u k) (u.length - 1) = searchsorted u k := by omega
      simp only [fullSlotOf, h0, if_true, e, this.2]
      exact ⟨this.1, trivial⟩
    · right
      refine ⟨?_, hk⟩
      simp only [fullSlotOf, h0, if_true]
      rw [if_neg]
      intro he
      have hlt : min (searchsorted u k) (u.length - 1) < u.length := by omega
      apply hk
      rw [← he, List.getD_eq_getElem _ _ hlt]; exact List.getElem_mem hlt
  · right
    have : u = [] := by simpa using h0
    subst this
    simp [fullSlotOf]

/-! ## Key coding -/

theorem key_inj {n i j r c : ℕ} (hj : j < n) (hc : c < n) (h : r * n + c = i * n + j) :
    r = i ∧ c = j := by
  have hn : 0 < n := by omega
  have h1 : (r * n + c) / n = r := by
    rw [Nat.mul_comm, Nat.mul_add_div hn, Nat.div_eq_of_lt hc]; rfl
  have h2 : (i * n + j) / n = i := by
    rw [Nat.mul_comm, Nat.mul_add_div hn, Nat.div_eq_of_lt hj]; rfl
  have : r = i := by rw [← h1, ← h2, h]
  subst this
  exact ⟨rfl, by omega⟩

theorem key_div {n r c : ℕ} (hc : c < n) : (r * n + c) / n = r := by
  have hn : 0 < n := by omega
  rw [Nat.mul_comm, Nat.mul_add_div hn, Nat.div_eq_of_lt hc]; rfl

theorem key_mod {n r c : ℕ} (hc : c < n) : (r * n + c) % n = c := by
  rw [Nat.mul_comm, Nat.mul_add_mod, Nat.mod_eq_of_lt hc]

theorem nodup_of_sorted {l : List ℕ} (h : l.Pairwise (· < ·)) : l.Nodup :=
  h.imp (fun h => Nat.ne_of_lt h)

/-! ## Fields of the built structure -/

section
variable (n : ℕ) (rows cols rowsAll colsAll : List ℕ)

/-- Sorted unique keys of the entries `(rows, cols)`. -/
def ukeys (n : ℕ) (rows cols : List ℕ) : List ℕ :=
  uniq (gather 0 (coordKeys n rows cols) (argsort (coordKeys n rows cols)))

theorem build_nse : (buildCsrMaps n rows cols rowsAll colsAll).nse = (ukeys n rows cols).length :=
  nseOf_segIdsOf (gather 0 (coordKeys n rows cols) (argsort (coordKeys n rows cols)))

theorem build_indptr : (buildCsrMaps n rows cols rowsAll colsAll).indptr
    = ptrOfRows n ((ukeys n rows cols).map (· / n)) := rfl

theorem build_indices : (buildCsrMaps n rows cols rowsAll colsAll).indices
    = (ukeys n rows cols).map (· % n) := rfl

theorem build_rowOfSlot : (buildCsrMaps n rows cols rowsAll colsAll).rowOfSlot
    = (ukeys n rows cols).map (· / n) := rfl

theorem build_perm : (buildCsrMaps n rows cols rowsAll colsAll).perm
    = argsort (coordKeys n rows cols) := rfl

theorem build_segIds : (buildCsrMaps n rows cols rowsAll colsAll).segIds
    = segIdsOf (gather 0 (coordKeys n rows cols) (argsort (coordKeys n rows cols))) := rfl

theorem build_fullSlot : (buildCsrMaps n rows cols rowsAll colsAll).fullSlot
    = (coordKeys n rowsAll colsAll).map
        (fullSlotOf (ukeys n rows cols) (ukeys n rows cols).length) := by
  rw [← build_nse n rows cols rowsAll colsAll]; rfl

theorem build_slot : (buildCsrMaps n rows cols rowsAll colsAll).slot
    = scatterSet (List.replicate rows.length 0) (argsort (coordKeys n rows cols))
      (segIdsOf (gather 0 (coordKeys n rows cols) (argsort (coordKeys n rows cols)))) := rfl

theorem build_diagSlots : (buildCsrMaps n rows cols rowsAll colsAll).diagSlots
    = diagSlotsOf n ((ukeys n rows cols).map (· / n)) ((ukeys n rows cols).map (· % n)) := rfl

/-- Transposed keys of the stored entries. -/
def tkeys (n : ℕ) (u : List ℕ) : List ℕ := coordKeys n (u.map (· % n)) (u.map (· / n))

theorem build_tPerm : (buildCsrMaps n rows cols rowsAll colsAll).tPerm
    = argsort (tkeys n (ukeys n rows cols)) := rfl

theorem build_tIndices : (buildCsrMaps n rows cols rowsAll colsAll).tIndices
    = gather 0 ((ukeys n rows cols).map (· / n)) (argsort (tkeys n (ukeys n rows cols))) := rfl

theorem build_tIndptr : (buildCsrMaps n rows cols rowsAll colsAll).tIndptr
    = ptrOfRows n (gather 0 ((ukeys n rows cols).map (· % n))
        (argsort (tkeys n (ukeys n rows cols)))) := rfl

theorem build_structSym : (buildCsrMaps n rows cols rowsAll colsAll).structurallySymmetric
    = (((buildCsrMaps n rows cols rowsAll colsAll).indices
        == (buildCsrMaps n rows cols rowsAll colsAll).tIndices)
      && ((buildCsrMaps n rows cols rowsAll colsAll).indptr
        == (buildCsrMaps n rows cols rowsAll colsAll).tIndptr)) := rfl

end

theorem ukeys_sorted (n : ℕ) (rows cols : List ℕ) : (ukeys n rows cols).Pairwise (· < ·) :=
  uniq_pairwise (gather_argsort_sorted _)

theorem mem_ukeys (n : ℕ) (rows cols : List ℕ) (k : ℕ) :
    k ∈ ukeys n rows cols ↔ k ∈ coordKeys n rows cols := by
  unfold ukeys
  rw [mem_uniq, (gather_argsort_perm _).mem_iff]

end Verif.Model
