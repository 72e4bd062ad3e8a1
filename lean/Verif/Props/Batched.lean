import Verif.Props.Csr
import Verif.Props.Band
import Verif.Model.Direct

/-!
# C39: batched sparse solves
-/

namespace Verif.Props

open Verif.Model Verif.Lemmas

section
variable {K : Type*} [CommRing K]

/-- `x` solves `D x = rhs` (`D` dense of size `n`); with `tr`, `Dᵀ x = rhs`. -/
def SolvesDense (D : ℕ → ℕ → K) (tr : Bool) (n : ℕ) (x rhs : List K) : Prop :=
  ∀ i < n, ∑ j ∈ Finset.range n, (if tr then D j i else D i j) * x.getD j 0 = rhs.getD i 0

/-- A CSR pattern of size `n`: `offsets` starts at 0, is monotone, does not exceed the columns given (which may be
padded), and the columns are in range. -/
structure ValidPattern (n : ℕ) (offsets columns : List ℕ) : Prop where
  length : offsets.length = n + 1
  zero : offsets.getD 0 0 = 0
  mono : ∀ r, r < n → offsets.getD r 0 ≤ offsets.getD (r + 1) 0
  enough : offsets.getD n 0 ≤ columns.length
  cols : ∀ c ∈ columns, c < n

theorem ValidPattern.last {n : ℕ} {offsets columns : List ℕ} (h : ValidPattern n offsets columns) :
    offsets.getLastD 0 = offsets.getD n 0 := by
  have hl := h.length
  rw [List.getLastD_eq_getLast?, List.getLast?_eq_getElem?, hl, List.getD_eq_getElem?_getD]
  rfl

theorem ValidPattern.rep_length {n : ℕ} {offsets columns : List ℕ} (h : ValidPattern n offsets columns) :
    (repeatByPtr offsets).length = offsets.getD n 0 := by
  have := (repeat_prefix offsets n h.zero h.mono n le_rfl).1
  unfold repeatByPtr
  rw [h.length, Nat.add_sub_cancel]
  exact this

theorem rep_lt (offsets : List ℕ) : ∀ r ∈ repeatByPtr offsets, r < offsets.length - 1 := by
  intro r hr
  simp only [repeatByPtr, List.mem_flatten, List.mem_map, List.mem_range] at hr
  obtain ⟨l, ⟨q, hq, rfl⟩, hr⟩ := hr
  rw [List.eq_of_mem_replicate hr]
  exact hq

theorem flatten_range_mul {α : Type*} (f : ℕ → List α) (B n : ℕ) :
    ((List.range (B * n)).map f).flatten =
      ((List.range B).map fun b => ((List.range n).map fun i => f (b * n + i)).flatten).flatten := by
  induction B with
  | zero => simp
  | succ B ih =>
    rw [Nat.succ_mul, List.range_add, List.map_append, List.flatten_append, ih, List.range_succ, List.map_append,
      List.flatten_append, List.map_map]
    simp [Function.comp_def]

theorem zip_flatten_range {α β : Type*} (f : ℕ → List α) (g : ℕ → List β) (B : ℕ)
    (h : ∀ b < B, (f b).length = (g b).length) :
    ((List.range B).map f).flatten.zip ((List.range B).map g).flatten =
      ((List.range B).map fun b => (f b).zip (g b)).flatten := by
  induction B with
  | zero => simp
  | succ B ih =>
    have hl : ((List.range B).map f).flatten.length = ((List.range B).map g).flatten.length := by
      rw [List.length_flatten, List.length_flatten, List.map_map, List.map_map]
      congr 1
      apply List.map_congr_left
      intro b hb
      exact h b (by rw [List.mem_range] at hb; omega)
    rw [List.range_succ]
    simp only [List.map_append, List.flatten_append, List.map_cons, List.map_nil, List.flatten_cons, List.flatten_nil,
      List.append_nil]
    rw [List.zip_append hl, ih fun b hb => h b (by omega)]

/-- The stacked row pointer, entrywise. -/
theorem batched_ptr_getD {n : ℕ} {offsets columns : List ℕ} (hv : ValidPattern n offsets columns) (B b i : ℕ)
    (hb : b < B) (hi : i ≤ n) :
    (offsets.headD 0 :: ((List.range B).map fun b : ℕ => offsets.tail.map fun p => p + b * offsets.getD n 0).flatten).getD
      (b * n + i) 0 = offsets.getD i 0 + b * offsets.getD n 0 := by
  have htail : ∀ k < n, offsets.tail.getD k 0 = offsets.getD (k + 1) 0 := by
    intro k _
    simp [List.getD_eq_getElem?_getD]
  have hblk : ∀ (b k : ℕ), b < B → k < n →
      ((List.range B).map fun b : ℕ => offsets.tail.map fun p => p + b * offsets.getD n 0).flatten.getD (b * n + k) 0 =
        offsets.getD (k + 1) 0 + b * offsets.getD n 0 := by
    intro b k hb hk
    rw [flat_getD_row 0 n _ _ b k (by simpa using hb) hk]
    · have htl : k < offsets.tail.length := by rw [List.length_tail, hv.length]; omega
      rw [List.getD_eq_getElem _ [] (by simpa using hb), List.getElem_map, List.getElem_range,
        List.getD_eq_getElem _ _ (by simpa using htl), List.getElem_map, ← htail k hk,
        List.getD_eq_getElem _ _ htl]
    · intro r hr
      rw [List.mem_map] at hr
      obtain ⟨b, _, rfl⟩ := hr
      rw [List.length_map, List.length_tail, hv.length]
      omega
  by_cases h0 : b * n + i = 0
  · rw [h0, List.getD_cons_zero]
    have hi0 : i = 0 := by omega
    subst hi0
    have hh : offsets.headD 0 = offsets.getD 0 0 := by cases offsets <;> rfl
    rw [hh, hv.zero]
    rcases Nat.eq_zero_or_pos b with hb0 | hb0
    · subst hb0; simp
    · have hn : n = 0 := by
        rcases Nat.eq_zero_or_pos n with h | h
        · exact h
        · exact absurd h0 (by positivity)
      subst hn
      rw [hv.zero]; simp
  · obtain ⟨m, hm⟩ : ∃ m, b * n + i = m + 1 := ⟨b * n + i - 1, by omega⟩
    rw [hm, List.getD_cons_succ]
    rcases Nat.eq_zero_or_pos i with hi0 | hi0
    · subst hi0
      obtain ⟨b', rfl⟩ : ∃ b', b = b' + 1 := by
        refine ⟨b - 1, ?_⟩
        rcases Nat.eq_zero_or_pos b with h | h
        · subst h; simp at h0
        · omega
      have hn : 0 < n := by
        rcases Nat.eq_zero_or_pos n with h | h
        · subst h; simp at h0
        · exact h
      have e : m = b' * n + (n - 1) := by
        have : (b' + 1) * n = b' * n + n := by ring
        omega
      rw [e, hblk b' (n - 1) (by omega) (by omega), show n - 1 + 1 = n by omega, hv.zero]
      ring
    · have e : m = b * n + (i - 1) := by omega
      rw [e, hblk b (i - 1) hb (by omega), show i - 1 + 1 = i by omega]

/-- The rows of the stacked slots. -/
theorem batched_rows {n : ℕ} {offsets columns : List ℕ} (hv : ValidPattern n offsets columns) (B : ℕ) :
    repeatByPtr (offsets.headD 0 :: ((List.range B).map fun b : ℕ => offsets.tail.map fun p => p + b * offsets.getD n 0).flatten) =
      ((List.range B).map fun b : ℕ => (repeatByPtr offsets).map fun r => b * n + r).flatten := by
  conv_lhs => unfold repeatByPtr
  have hlen : (offsets.headD 0 :: ((List.range B).map fun b : ℕ => offsets.tail.map fun p => p + b * offsets.getD n 0).flatten).length - 1
      = B * n := by
    rw [List.length_cons, Nat.add_sub_cancel, List.length_flatten, List.map_map]
    have : (List.length ∘ fun b : ℕ => offsets.tail.map fun p => p + b * offsets.getD n 0) = fun _ => n := by
      funext b
      simp [hv.length]
    rw [this, List.map_const', List.sum_replicate]
    simp
  rw [hlen, flatten_range_mul]
  congr 1
  apply List.map_congr_left
  intro b hb
  rw [List.mem_range] at hb
  unfold repeatByPtr
  rw [hv.length, Nat.add_sub_cancel, List.map_flatten, List.map_map]
  congr 1
  apply List.map_congr_left
  intro i hi
  rw [List.mem_range] at hi
  simp only [Function.comp]
  rw [batched_ptr_getD hv B b i hb (by omega), Nat.add_assoc, batched_ptr_getD hv B b (i + 1) hb (by omega),
    List.map_replicate]
  congr 1
  omega

theorem key_inj2 {n b b' i i' : ℕ} (hi : i < n) (hi' : i' < n) (h : b' * n + i' = b * n + i) : b' = b ∧ i' = i := by
  have h1 : (b' * n + i') / n = (b * n + i) / n := by rw [h]
  have h2 : (b' * n + i') % n = (b * n + i) % n := by rw [h]
  rw [key_div hi', key_div hi] at h1
  rw [key_mod hi', key_mod hi] at h2
  exact ⟨h1, h2⟩

/-- C39: the stacked matrix is block diagonal, with the given systems as its blocks, for any batch size, any valid
pattern (padded or not) and any values. -/
theorem C39_stacked_matrix_block_diagonal (n : ℕ) (offsets columns : List ℕ) (hv : ValidPattern n offsets columns)
    (blocks : List (List K)) (hblocks : ∀ d ∈ blocks, offsets.getD n 0 ≤ d.length) :
    ∃ A, assembleBatched blocks columns offsets n = .ok A ∧ A.numRows = blocks.length * n ∧ A.numCols = blocks.length * n ∧
      ∀ b < blocks.length, ∀ c < blocks.length, ∀ i < n, ∀ j < n,
        A.todense (b * n + i) (c * n + j) =
          if b = c then (buildCsr (blocks.getD b []) columns offsets n).todense i j else 0 := by
  have hlast := hv.last
  refine ⟨{ data := (blocks.map (·.take (offsets.getD n 0))).flatten
            indptr := offsets.headD 0 ::
              ((List.range blocks.length).map fun b : ℕ => offsets.tail.map fun p => p + b * offsets.getD n 0).flatten
            indices := ((List.range blocks.length).map fun b : ℕ =>
              (columns.take (offsets.getD n 0)).map fun j => j + b * n).flatten
            numRows := blocks.length * n
            numCols := blocks.length * n }, ?_, rfl, rfl, ?_⟩
  · unfold assembleBatched
    simp only [hlast, hv.length, Nat.add_sub_cancel]
    rw [if_neg (by have := hv.enough; omega), if_neg]
    rw [Bool.not_eq_true, List.any_eq_false]
    intro d hd
    have := hblocks d hd
    simpa using this
  · 
    intro b hb c hc i hi j hj
    have hbn : b * n + i < blocks.length * n := by
      calc b * n + i < b * n + n := by omega
        _ = (b + 1) * n := by ring
        _ ≤ blocks.length * n := Nat.mul_le_mul_right n hb
    have hcn : c * n + j < blocks.length * n := by
      calc c * n + j < c * n + n := by omega
        _ = (c + 1) * n := by ring
        _ ≤ blocks.length * n := Nat.mul_le_mul_right n hc
    unfold CSRMatrix.todense
    rw [if_pos ⟨hbn, hcn⟩]
    simp only [CSRMatrix.rowOfSlot]
    rw [batched_rows hv]
    have hdata : blocks.map (·.take (offsets.getD n 0)) =
        (List.range blocks.length).map fun b => (blocks.getD b []).take (offsets.getD n 0) :=
      map_eq_range_map [] _ _
    rw [hdata, zip_flatten_range _ _ _ (by
      intro b _
      simp only [List.length_map, List.length_take]
      rw [hv.rep_length]
      have := hv.enough
      omega), zip_flatten_range _ _ _ (by
      intro b hb
      simp only [List.length_zip, List.length_map, List.length_take]
      rw [hv.rep_length]
      have h1 := hv.enough
      have h2 : offsets.getD n 0 ≤ (blocks.getD b []).length := by
        rw [List.getD_eq_getElem _ _ hb]
        exact hblocks _ (List.getElem_mem hb)
      omega), List.filter_flatten, List.map_flatten, List.sum_flatten, List.map_map, List.map_map, List.map_map,
      sum_range_list]
    have hterm : ∀ b' ∈ Finset.range blocks.length,
        (List.sum ∘ (List.map fun p : (ℕ × ℕ) × K => p.2) ∘ (List.filter fun p : (ℕ × ℕ) × K => p.1 == (b * n + i, c * n + j)) ∘
          fun b' : ℕ => ((List.map (fun r => b' * n + r) (repeatByPtr offsets)).zip
            (List.map (fun j => j + b' * n) (List.take (offsets.getD n 0) columns))).zip
            (List.take (offsets.getD n 0) (blocks.getD b' []))) b' =
        if b' = b ∧ b = c then (buildCsr (blocks.getD b []) columns offsets n).todense i j else 0 := by
      intro b' hb'
      simp only [Function.comp]
      have hz : ((List.map (fun r => b' * n + r) (repeatByPtr offsets)).zip
            (List.map (fun j => j + b' * n) (List.take (offsets.getD n 0) columns))).zip
            (List.take (offsets.getD n 0) (blocks.getD b' [])) =
          (((repeatByPtr offsets).zip (List.take (offsets.getD n 0) columns)).zip
            (List.take (offsets.getD n 0) (blocks.getD b' []))).map
              (fun p => ((b' * n + p.1.1, p.1.2 + b' * n), p.2)) := by
        rw [List.zip_map, List.zip_map_left]
        rfl
      rw [hz, List.filter_map, List.map_map]
      split
      · rename_i hcond
        obtain ⟨rfl, rfl⟩ := hcond
        unfold CSRMatrix.todense
        rw [if_pos ⟨by simpa [buildCsr] using hi, by simpa [buildCsr] using hj⟩]
        simp only [buildCsr, CSRMatrix.rowOfSlot, hlast]
        congr 1
        have : (fun p : (ℕ × ℕ) × K => p.2) ∘ (fun p : (ℕ × ℕ) × K => ((b' * n + p.1.1, p.1.2 + b' * n), p.2)) =
            fun p => p.2 := rfl
        rw [this]
        congr 1
        apply List.filter_congr
        rintro ⟨⟨r, q⟩, v⟩ hp
        simp only [Function.comp]
        rw [Bool.eq_iff_iff]
        simp only [beq_iff_eq, Prod.mk.injEq]
        omega
      · rename_i hcond
        have : List.filter ((fun p : (ℕ × ℕ) × K => p.1 == (b * n + i, c * n + j)) ∘
            fun p : (ℕ × ℕ) × K => ((b' * n + p.1.1, p.1.2 + b' * n), p.2))
            (((repeatByPtr offsets).zip (List.take (offsets.getD n 0) columns)).zip
              (List.take (offsets.getD n 0) (blocks.getD b' []))) = [] := by
          rw [List.filter_eq_nil_iff]
          rintro ⟨⟨r, q⟩, v⟩ hp
          have h1 := (List.of_mem_zip hp).1
          have h2 := List.of_mem_zip h1
          have hr := rep_lt offsets r h2.1
          rw [hv.length] at hr
          have hq := hv.cols q (List.mem_of_mem_take h2.2)
          simp only [Function.comp, beq_iff_eq, Prod.mk.injEq, not_and]
          intro e1 e2
          obtain ⟨k1, _⟩ := key_inj2 hi (by omega : r < n) e1
          obtain ⟨k2, _⟩ := key_inj2 hj hq (show b' * n + q = c * n + j by omega)
          exact hcond ⟨k1, by omega⟩
        rw [this]
        rfl
    refine (Finset.sum_congr rfl hterm).trans ?_
    by_cases hbc : b = c
    · simp only [hbc, and_true, if_true]
      rw [Finset.sum_ite_eq' (Finset.range blocks.length) c]
      rw [if_pos (by simpa using hc)]
      rfl
    · simp [hbc]

theorem sum_range_mul (f : ℕ → K) (B n : ℕ) :
    ∑ q ∈ Finset.range (B * n), f q = ∑ c ∈ Finset.range B, ∑ j ∈ Finset.range n, f (c * n + j) := by
  induction B with
  | zero => simp
  | succ B ih => rw [Nat.succ_mul, Finset.sum_range_add, ih, Finset.sum_range_succ]

/-- C39: a vector solves the stacked system iff each of its blocks solves its own system; also for the transposed
systems. -/
theorem C39_stacked_solve_iff (n : ℕ) (offsets columns : List ℕ) (hv : ValidPattern n offsets columns)
    (blocks : List (List K)) (hblocks : ∀ d ∈ blocks, offsets.getD n 0 ≤ d.length) (tr : Bool) (xs rhss : List (List K))
    (hx : xs.length = blocks.length) (hr : rhss.length = blocks.length) (hxn : ∀ x ∈ xs, x.length = n)
    (hrn : ∀ r ∈ rhss, r.length = n) :
    ∃ A, assembleBatched blocks columns offsets n = .ok A ∧
      (SolvesDense A.todense tr (blocks.length * n) xs.flatten rhss.flatten ↔
        ∀ b < blocks.length, SolvesDense (buildCsr (blocks.getD b []) columns offsets n).todense tr n
          (xs.getD b []) (rhss.getD b [])) := by
  obtain ⟨A, e, _, _, hA⟩ := C39_stacked_matrix_block_diagonal n offsets columns hv blocks hblocks
  refine ⟨A, e, ?_⟩
  have key : ∀ b < blocks.length, ∀ i < n,
      ∑ q ∈ Finset.range (blocks.length * n), (if tr then A.todense q (b * n + i) else A.todense (b * n + i) q) *
        xs.flatten.getD q 0 =
      ∑ j ∈ Finset.range n, (if tr then (buildCsr (blocks.getD b []) columns offsets n).todense j i
        else (buildCsr (blocks.getD b []) columns offsets n).todense i j) * (xs.getD b []).getD j 0 := by
    intro b hb i hi
    rw [sum_range_mul, Finset.sum_eq_single b]
    · apply Finset.sum_congr rfl
      intro j hj
      rw [Finset.mem_range] at hj
      rw [flat_getD_row 0 n xs hxn b j (by omega) hj, hA b hb b hb i hi j hj, hA b hb b hb j hj i hi, if_pos rfl, if_pos rfl]
    · intro c hc hne
      rw [Finset.mem_range] at hc
      apply Finset.sum_eq_zero
      intro j hj
      rw [Finset.mem_range] at hj
      rw [hA b hb c hc i hi j hj, hA c hc b hb j hj i hi, if_neg (Ne.symm hne), if_neg hne]
      simp
    · intro hnot
      exact absurd (Finset.mem_range.2 hb) hnot
  constructor
  · intro h b hb i hi
    have hbn : b * n + i < blocks.length * n := by
      calc b * n + i < b * n + n := by omega
        _ = (b + 1) * n := by ring
        _ ≤ blocks.length * n := Nat.mul_le_mul_right n hb
    have h1 := h (b * n + i) hbn
    rw [key b hb i hi, flat_getD_row 0 n rhss hrn b i (by omega) hi] at h1
    exact h1
  · intro h q hq
    have hn : 0 < n := by
      rcases Nat.eq_zero_or_pos n with h0 | h0
      · subst h0; simp at hq
      · exact h0
    have hqe : q = q / n * n + q % n := by rw [Nat.mul_comm]; exact (Nat.div_add_mod q n).symm
    have hb : q / n < blocks.length := by
      rw [Nat.div_lt_iff_lt_mul hn]; exact hq
    have hi : q % n < n := Nat.mod_lt _ hn
    have h1 := h (q / n) hb (q % n) hi
    rw [← key (q / n) hb (q % n) hi, ← flat_getD_row 0 n rhss hrn (q / n) (q % n) (by omega) hi, ← hqe] at h1
    exact h1

/-! ### The public batched solves -/

/-- What is assumed of the factorisation backend: an answer has the right length and solves the system. -/
def SoundBackend (solve : CSRMatrix K → List K → Except PyErr (List K)) (tr : Bool) : Prop :=
  ∀ A rhs x, solve A rhs = .ok x → x.length = rhs.length ∧ SolvesDense A.todense tr rhs.length x rhs

/-- The values of system `k`. -/
def BatchValues.sys : BatchValues K → ℕ → List K
  | .shared v, _ => v
  | .each vs, k => vs.getD k []

theorem transpose_transpose (n m : ℕ) (rows : List (List K)) (hm : rows.length = m) (hr : ∀ r ∈ rows, r.length = n) :
    transposeRows m (transposeRows n rows) = rows := by
  unfold transposeRows
  apply List.ext_getElem (by simp [hm])
  intro j h1 h2
  simp only [List.getElem_map, List.getElem_range, List.map_map]
  have hl := hr rows[j] (List.getElem_mem h2)
  apply List.ext_getElem (by simp [hl])
  intro i h3 h4
  simp only [List.getElem_map, List.getElem_range, Function.comp]
  rw [List.getD_eq_getElem _ _ (by simpa using h2), List.getElem_map, List.getD_eq_getElem _ _ h4]

theorem transpose_col (n m : ℕ) (rows : List (List K)) (hm : rows.length = m) (hr : ∀ r ∈ rows, r.length = n) (j : ℕ)
    (hj : j < m) : (transposeRows n rows).map (fun r => r.getD j 0) = rows.getD j [] := by
  have h := transpose_transpose n m rows hm hr
  unfold transposeRows at h ⊢
  have h2 : ((List.range m).map fun j => ((List.range n).map fun i => rows.map fun r => r.getD i 0).map fun r => r.getD j 0).getD j []
      = rows.getD j [] := by rw [h]
  rw [List.getD_eq_getElem _ _ (by simpa using hj), List.getElem_map, List.getElem_range] at h2
  exact h2

theorem flattenF_transpose (n m : ℕ) (rows : List (List K)) (hm : rows.length = m) (hr : ∀ r ∈ rows, r.length = n) :
    flattenF m (transposeRows n rows) = rows.flatten := by
  unfold flattenF
  congr 1
  apply List.ext_getElem (by simp [hm])
  intro j h1 h2
  simp only [List.getElem_map, List.getElem_range]
  rw [transpose_col n m rows hm hr j (by omega), List.getD_eq_getElem _ _ h2]

theorem transpose_reshapeF (n m : ℕ) (x : List K) (hx : x.length = m * n) :
    transposeRows m (reshapeF n m x) = reshapeRows m n x := by
  unfold transposeRows reshapeF reshapeRows
  apply List.map_congr_left
  intro j hj
  rw [List.mem_range] at hj
  rw [List.map_map]
  have hjn : j * n + n ≤ x.length := by
    rw [hx]
    calc j * n + n = (j + 1) * n := by ring
      _ ≤ m * n := Nat.mul_le_mul_right n hj
  apply List.ext_getElem (by simp; omega)
  intro i h1 h2
  have hi : i < n := by simpa using h1
  simp only [List.getElem_map, List.getElem_range, Function.comp, List.getElem_take, List.getElem_drop]
  rw [List.getD_eq_getElem _ _ (by simpa using hj), List.getElem_map, List.getElem_range,
    List.getD_eq_getElem _ _ (by omega)]

/-- The outcome required of a batched solve: answer `k` solves system `k`. -/
def AllSolved (n : ℕ) (b : List (List K)) (vals : ℕ → List K) (offsets columns : ℕ → List ℕ) (tr : Bool)
    (X : List (List K)) : Prop :=
  X.length = b.length ∧ ∀ k < b.length, (X.getD k []).length = n ∧
    SolvesDense (buildCsr (vals k) (columns k) (offsets k) n).todense tr n (X.getD k []) (b.getD k [])

theorem stacked_answer (solve : CSRMatrix K → List K → Except PyErr (List K)) (tr : Bool) (hs : SoundBackend solve tr)
    (n : ℕ) (offsets columns : List ℕ) (hv : ValidPattern n offsets columns) (b blocks : List (List K))
    (hb : ∀ r ∈ b, r.length = n) (hbl : blocks.length = b.length) (hblocks : ∀ d ∈ blocks, offsets.getD n 0 ≤ d.length)
    (A : CSRMatrix K) (hA : assembleBatched blocks columns offsets n = .ok A) (x : List K)
    (hx : solve A b.flatten = .ok x) :
    x.length = b.length * n ∧
      AllSolved n b (fun k => blocks.getD k []) (fun _ => offsets) (fun _ => columns) tr (reshapeRows b.length n x) := by
  obtain ⟨h1, h2⟩ := hs A _ x hx
  have hfl : b.flatten.length = b.length * n := by
    rw [List.length_flatten, List.map_congr_left hb, List.map_const', List.sum_replicate]
    simp
  have hxl : x.length = b.length * n := by rw [h1, hfl]
  refine ⟨hxl, by simp, ?_⟩
  have hrows := reshapeRows_row_length b.length n x hxl
  obtain ⟨A', e, hiff⟩ := C39_stacked_solve_iff n offsets columns hv blocks hblocks tr (reshapeRows b.length n x) b
    (by simp [hbl]) hbl.symm hrows hb
  rw [hA] at e
  simp only [Except.ok.injEq] at e
  subst e
  rw [reshapeRows_flatten _ _ _ hxl] at hiff
  rw [hfl, ← hbl] at h2
  have h3 := hiff.1 h2
  intro k hk
  refine ⟨?_, h3 k (by omega)⟩
  rw [List.getD_eq_getElem _ _ (by simpa using hk)]
  exact hrows _ (List.getElem_mem _)

/-- C39 for CHOLMOD and SciPy: whenever the batched solve answers, each row of the answer solves its own system,
with shared or individual values. -/
theorem C39_cholmod_batched (solve : CSRMatrix K → List K → Except PyErr (List K)) (tr : Bool)
    (hs : SoundBackend solve tr) (n : ℕ) (offsets columns : List ℕ) (hv : ValidPattern n offsets columns)
    (b : List (List K)) (hb : ∀ r ∈ b, r.length = n) (vals : BatchValues K) (X : List (List K))
    (h : cholmodBatched solve n b vals offsets columns = .ok X) :
    AllSolved n b (BatchValues.sys vals) (fun _ => offsets) (fun _ => columns) tr X := by
  unfold cholmodBatched at h
  by_cases hp : payloadOk n b vals offsets columns = true
  · rw [if_pos hp] at h
    set blocks := (match vals with
      | .shared v => List.replicate b.length v
      | .each vs => vs) with hblk
    have hfacts : blocks.length = b.length ∧ (∀ d ∈ blocks, offsets.getD n 0 ≤ d.length) ∧
        ∀ k < b.length, blocks.getD k [] = BatchValues.sys vals k := by
      unfold payloadOk at hp
      rw [Bool.and_eq_true] at hp
      obtain ⟨_, hp⟩ := hp
      have henough := hv.enough
      cases vals with
      | shared v =>
        have hv2 : v.length = columns.length := by simpa using hp
        refine ⟨by simp [hblk], ?_, ?_⟩
        · intro d hd
          rw [List.eq_of_mem_replicate hd, hv2]
          exact henough
        · intro k hk
          rw [List.getD_eq_getElem _ _ (by simpa [hblk] using hk)]
          simp [hblk, BatchValues.sys]
      | each vs =>
        rw [Bool.and_eq_true, List.all_eq_true] at hp
        refine ⟨by simpa using hp.1, ?_, fun k _ => rfl⟩
        intro d hd
        have := hp.2 d hd
        have : d.length = columns.length := by simpa using this
        omega
    change (assembleBatched blocks columns offsets n).bind (fun A => (solve A b.flatten).bind fun x =>
      pure (reshapeRows b.length n x)) = _ at h
    cases hA : assembleBatched blocks columns offsets n with
    | error e => rw [hA] at h; simp [Except.bind] at h
    | ok A =>
      rw [hA] at h
      cases hx : solve A b.flatten with
      | error e => simp [Except.bind, hx] at h
      | ok x =>
        simp only [bind, Except.bind, hx, pure, Except.pure, Except.ok.injEq] at h
        subst h
        have := (stacked_answer solve tr hs n offsets columns hv b blocks hb hfacts.1 hfacts.2.1 A hA x hx).2
        refine ⟨this.1, ?_⟩
        intro k hk
        have h2 := this.2 k hk
        simp only [hfacts.2.2 k hk] at h2
        exact h2
  · rw [if_neg hp] at h; simp at h

theorem mapM_getD {β γ : Type*} (f : β → Except PyErr γ) (d : β) (dg : γ) (l : List β) (r : List γ) (h : l.mapM f = .ok r) :
    r.length = l.length ∧ ∀ k < l.length, f (l.getD k d) = .ok (r.getD k dg) := by
  induction l generalizing r with
  | nil =>
    simp only [List.mapM_nil, pure, Except.pure, Except.ok.injEq] at h
    subst h
    exact ⟨rfl, by simp⟩
  | cons a rest ih =>
    rw [List.mapM_cons] at h
    cases ha : f a with
    | error e => rw [ha] at h; simp [bind, Except.bind] at h
    | ok c =>
      cases hr : rest.mapM f with
      | error e => rw [ha, hr] at h; simp [bind, Except.bind] at h
      | ok cs =>
        rw [ha, hr] at h
        simp only [bind, Except.bind, pure, Except.pure, Except.ok.injEq] at h
        subst h
        obtain ⟨h1, h2⟩ := ih cs hr
        refine ⟨by simp [h1], ?_⟩
        intro k hk
        cases k with
        | zero => simpa using ha
        | succ k => simpa using h2 k (by simpa using hk)

/-- C39 for UMFPACK: the same, for plain and transposed systems. -/
theorem C39_umfpack_batched (solve : CSRMatrix K → List K → Except PyErr (List K)) (tr : Bool)
    (hs : SoundBackend solve tr) (n : ℕ) (offsets columns : List ℕ) (hv : ValidPattern n offsets columns)
    (b : List (List K)) (hb : ∀ r ∈ b, r.length = n) (vals : BatchValues K) (X : List (List K))
    (h : umfpackBatched solve n b vals offsets columns = .ok X) :
    AllSolved n b (BatchValues.sys vals) (fun _ => offsets) (fun _ => columns) tr X := by
  unfold umfpackBatched at h
  by_cases hp : payloadOk n b vals offsets columns = true
  · rw [if_pos hp] at h
    cases vals with
    | shared v =>
      simp only at h
      cases hc : ((List.range b.length).map fun j => (transposeRows n b).map fun r => r.getD j 0).mapM
          (solve (buildCsr v columns offsets n)) with
      | error e => rw [hc] at h; simp [bind, Except.bind] at h
      | ok cols =>
        rw [hc] at h
        simp only [bind, Except.bind, pure, Except.pure, Except.ok.injEq] at h
        obtain ⟨hl, hk⟩ := mapM_getD _ [] [] _ _ hc
        simp only [List.length_map, List.length_range] at hl hk
        have hcol : ∀ k < b.length, solve (buildCsr v columns offsets n) (b.getD k []) = .ok (cols.getD k []) := by
          intro k hkb
          have := hk k hkb
          rw [List.getD_eq_getElem _ [] (by simpa using hkb), List.getElem_map, List.getElem_range,
            transpose_col n b.length b rfl hb k hkb] at this
          exact this
        have hbk : ∀ k < b.length, (b.getD k []).length = n := by
          intro k hkb
          rw [List.getD_eq_getElem _ _ hkb]
          exact hb _ (List.getElem_mem hkb)
        have hcl : ∀ r ∈ cols, r.length = n := by
          intro r hr
          obtain ⟨k, hkl, rfl⟩ := List.mem_iff_getElem.1 hr
          have hkb : k < b.length := by omega
          have := (hs _ _ _ (hcol k hkb)).1
          rw [hbk k hkb, List.getD_eq_getElem _ _ hkl] at this
          exact this
        rw [transpose_transpose n b.length cols hl hcl] at h
        subst h
        refine ⟨hl, ?_⟩
        intro k hkb
        have h2 := hs _ _ _ (hcol k hkb)
        rw [hbk k hkb] at h2
        exact h2
    | each vs =>
      simp only at h
      unfold payloadOk at hp
      rw [Bool.and_eq_true, Bool.and_eq_true, List.all_eq_true] at hp
      obtain ⟨_, hp1, hp2⟩ := hp
      have hvl : vs.length = b.length := by simpa using hp1
      have hblocks : ∀ d ∈ vs, offsets.getD n 0 ≤ d.length := by
        intro d hd
        have h1 : d.length = columns.length := by simpa using hp2 d hd
        have := hv.enough
        omega
      cases hA : assembleBatched vs columns offsets n with
      | error e => rw [hA] at h; simp [bind, Except.bind] at h
      | ok A =>
        rw [hA, flattenF_transpose n b.length b rfl hb] at h
        cases hx : solve A b.flatten with
        | error e => simp [bind, Except.bind, hx] at h
        | ok x =>
          simp only [bind, Except.bind, hx, pure, Except.pure, Except.ok.injEq] at h
          subst h
          obtain ⟨h1, h2⟩ := stacked_answer solve tr hs n offsets columns hv b vs hb hvl hblocks A hA x hx
          rw [transpose_reshapeF _ _ _ h1]
          exact h2
  · rw [if_neg hp] at h; simp at h

/-- C39 under `vmap` (partial: all instances have the same sparsity pattern). Whatever is mapped (right-hand sides,
values, both; the pattern arrays too), answer `k` solves instance `k`'s system. `batched` is any of the batched
solves above. Missing: instances with different patterns, which are accepted and solved with the first one's
(`C39_vmap_uses_first_pattern`). -/
theorem C39_vmap_partial (batched : List (List K) → BatchValues K → List ℕ → List ℕ → Except PyErr (List (List K)))
    (tr : Bool) (n size : ℕ) (b values : Mapped (List K)) (offsets columns : Mapped (List ℕ))
    (hbatched : ∀ bs vals o c X, ValidPattern n o c → (∀ r ∈ bs, r.length = n) → batched bs vals o c = .ok X →
      AllSolved n bs (BatchValues.sys vals) (fun _ => o) (fun _ => c) tr X)
    (hpos : 0 < size)
    (hbl : ∀ bs, b = .each bs → bs.length = size) (hvl : ∀ vs, values = .each vs → vs.length = size)
    (hol : ∀ os, offsets = .each os → os.length = size) (hcl : ∀ cs, columns = .each cs → cs.length = size)
    (hbn : ∀ k < size, (b.at [] k).length = n)
    (hsame : ∀ k < size, offsets.at [] k = offsets.at [] 0 ∧ columns.at [] k = columns.at [] 0)
    (hv : ValidPattern n (offsets.at [] 0) (columns.at [] 0)) (X : List (List K))
    (h : vmapSolve batched size b values offsets columns = .ok X) :
    X.length = size ∧ ∀ k < size, SolvesDense (buildCsr (values.at [] k) (columns.at [] k) (offsets.at [] k) n).todense
      tr n (X.getD k []) (b.at [] k) := by
  have hfirst : ∀ (m : Mapped (List ℕ)), (∀ l, m = .each l → l.length = size) → m.first [] = m.at [] 0 := by
    intro m hm
    cases m with
    | same x => rfl
    | each xs =>
      cases xs with
      | nil => have := hm [] rfl; simp at this; omega
      | cons y ys => rfl
  have ho := hfirst offsets hol
  have hc := hfirst columns hcl
  unfold vmapSolve at h
  simp only [ho, hc] at h
  have finish : ∀ (bs : List (List K)) (vs : List (List K)), bs.length = size →
      (∀ k < size, bs.getD k [] = b.at [] k) → (∀ k < size, vs.getD k [] = values.at [] k) →
      batched bs (.each vs) (offsets.at [] 0) (columns.at [] 0) = .ok X →
      X.length = size ∧ ∀ k < size, SolvesDense (buildCsr (values.at [] k) (columns.at [] k) (offsets.at [] k) n).todense
        tr n (X.getD k []) (b.at [] k) := by
    intro bs vs hbs hb hvs hx
    have hr : ∀ r ∈ bs, r.length = n := by
      intro r hrm
      obtain ⟨k, hk, rfl⟩ := List.mem_iff_getElem.1 hrm
      have h1 := hb k (by omega)
      rw [List.getD_eq_getElem _ _ hk] at h1
      rw [h1]
      exact hbn k (by omega)
    obtain ⟨h1, h2⟩ := hbatched bs (.each vs) _ _ X hv hr hx
    refine ⟨by omega, ?_⟩
    intro k hk
    have h3 := (h2 k (by omega)).2
    simp only [BatchValues.sys, hvs k hk, hb k hk] at h3
    rw [(hsame k hk).1, (hsame k hk).2]
    exact h3
  cases b with
  | same b =>
    cases values with
    | same v => simp at h
    | each vs =>
      refine finish (List.replicate size b) vs (by simp) ?_ (fun k _ => rfl) h
      intro k hk
      rw [List.getD_eq_getElem _ _ (by simpa using hk)]
      simp [Mapped.at]
  | each bs =>
    cases values with
    | same v =>
      refine finish bs (List.replicate size v) (hbl bs rfl) (fun k _ => rfl) ?_ h
      intro k hk
      rw [List.getD_eq_getElem _ _ (by simpa using hk)]
      simp [Mapped.at]
    | each vs => exact finish bs vs (hbl bs rfl) (fun k _ => rfl) (fun k _ => rfl) h

end

/-- A backend satisfying the assumption: it answers whenever a solution exists. -/
noncomputable def exactBackend {K : Type*} [CommRing K] (tr : Bool) (A : CSRMatrix K) (rhs : List K) :
    Except PyErr (List K) :=
  open Classical in
  if h : ∃ x : List K, x.length = rhs.length ∧ SolvesDense A.todense tr rhs.length x rhs then .ok h.choose
  else .error .runtimeError

theorem exactBackend_sound {K : Type*} [CommRing K] (tr : Bool) : SoundBackend (K := K) (exactBackend tr) tr := by
  intro A rhs x h
  unfold exactBackend at h
  split at h
  · rename_i hex
    simp only [Except.ok.injEq] at h
    subst h
    exact hex.choose_spec
  · simp at h

/-- The pattern of a full 2 × 2 matrix, padded by one entry. -/
example : ValidPattern 2 [0, 2, 4] [0, 1, 0, 1, 1] := by
  refine ⟨rfl, rfl, ?_, by decide, by decide⟩
  intro r hr
  interval_cases r <;> decide

/-- Two such systems stacked. -/
example : assembleBatched [[2, 0, 0, 3, 9], [1, 1, 0, 5, 9]] [0, 1, 0, 1, 1] [0, 2, 4] 2 =
    .ok (⟨[2, 0, 0, 3, 1, 1, 0, 5], [0, 2, 4, 6, 8], [0, 1, 0, 1, 2, 3, 2, 3], 4, 4⟩ : CSRMatrix ℤ) := by decide +kernel

/-- C39 fails under `vmap` when instances have different patterns: two 2 × 2 systems, one diagonal and one
anti-diagonal, are accepted, and the second is solved with the first one's pattern. Here the solve is exact. -/
theorem C39_vmap_uses_first_pattern :
    ∃ (solve : CSRMatrix ℤ → List ℤ → Except PyErr (List ℤ)) (X : List (List ℤ)),
      (∀ A rhs x, solve A rhs = .ok x → x.length = rhs.length ∧ SolvesDense A.todense false rhs.length x rhs) ∧
      vmapSolve (cholmodBatched solve 2) 2 (.each [[5, 7], [5, 7]]) (.each [[1, 1], [1, 1]]) (.same [0, 1, 2])
        (.each [[0, 1], [1, 0]]) = .ok X ∧
      ¬ SolvesDense (buildCsr [1, 1] [1, 0] [0, 1, 2] 2).todense false 2 (X.getD 1 []) [5, 7] := by
  have hb : ∀ r ∈ ([[5, 7], [5, 7]] : List (List ℤ)), r.length = 2 := by decide
  have hp : ValidPattern 2 [0, 1, 2] [0, 1] := by
    refine ⟨rfl, rfl, ?_, by decide, by decide⟩
    intro r hr
    interval_cases r <;> decide
  obtain ⟨A, hA, hiff⟩ := C39_stacked_solve_iff (K := ℤ) 2 [0, 1, 2] [0, 1] hp [[1, 1], [1, 1]] (by decide) false
    [[5, 7], [5, 7]] [[5, 7], [5, 7]] rfl rfl hb hb
  have hsol : SolvesDense A.todense false ([[1, 1], [1, 1]] : List (List ℤ)).length.succ.succ
      [5, 7, 5, 7] [5, 7, 5, 7] := by
    refine hiff.2 ?_
    intro b hb i hi
    have : b < 2 := hb
    interval_cases b <;> interval_cases i <;> decide
  have hex : ∃ x : List ℤ, x.length = [5, 7, 5, 7].length ∧
      SolvesDense A.todense false ([5, 7, 5, 7] : List ℤ).length x [5, 7, 5, 7] := ⟨[5, 7, 5, 7], rfl, hsol⟩
  have hans : ∃ x, exactBackend false A [5, 7, 5, 7] = .ok x := by
    refine ⟨hex.choose, ?_⟩
    unfold exactBackend
    exact dif_pos hex
  obtain ⟨x, hx⟩ := hans
  have hX : cholmodBatched (exactBackend false) 2 [[5, 7], [5, 7]] (.each [[1, 1], [1, 1]]) [0, 1, 2] [0, 1] =
      .ok (reshapeRows 2 2 x) := by
    unfold cholmodBatched
    rw [if_pos (by decide)]
    simp only [hA, bind, Except.bind]
    have : ([[5, 7], [5, 7]] : List (List ℤ)).flatten = [5, 7, 5, 7] := rfl
    rw [this, hx]
    rfl
  refine ⟨exactBackend false, reshapeRows 2 2 x, exactBackend_sound false, hX, ?_⟩
  have hall := C39_cholmod_batched (exactBackend false) false (exactBackend_sound false) 2 [0, 1, 2] [0, 1] hp
    [[5, 7], [5, 7]] hb (.each [[1, 1], [1, 1]]) _ hX
  have h1 := (hall.2 1 (by decide)).2
  intro hbad
  have g0 := h1 0 (by decide)
  have f0 := hbad 0 (by decide)
  have g1 := h1 1 (by decide)
  rw [Finset.sum_range_succ, Finset.sum_range_succ, Finset.sum_range_zero] at g0 f0 g1
  have e1 : (buildCsr ([1, 1] : List ℤ) [0, 1] [0, 1, 2] 2).todense 0 0 = 1 := by decide
  have e2 : (buildCsr ([1, 1] : List ℤ) [0, 1] [0, 1, 2] 2).todense 0 1 = 0 := by decide
  have e3 : (buildCsr ([1, 1] : List ℤ) [0, 1] [0, 1, 2] 2).todense 1 0 = 0 := by decide
  have e4 : (buildCsr ([1, 1] : List ℤ) [0, 1] [0, 1, 2] 2).todense 1 1 = 1 := by decide
  have e5 : (buildCsr ([1, 1] : List ℤ) [1, 0] [0, 1, 2] 2).todense 0 0 = 0 := by decide
  have e6 : (buildCsr ([1, 1] : List ℤ) [1, 0] [0, 1, 2] 2).todense 0 1 = 1 := by decide
  simp only [BatchValues.sys, List.getD_cons_succ, List.getD_cons_zero, Bool.false_eq_true, if_false, e1, e2, e3, e4, e5,
    e6] at g0 f0 g1
  omega

theorem exPattern_valid : ValidPattern 2 [0, 2, 4] [0, 1, 0, 1, 1] := by
  refine ⟨rfl, rfl, ?_, by decide, by decide⟩
  intro r hr
  interval_cases r <;> decide

example := C39_stacked_matrix_block_diagonal (K := ℤ) 2 _ _ exPattern_valid [[2, 0, 0, 3, 9], [1, 1, 0, 5, 9]] (by decide)
example := C39_stacked_solve_iff (K := ℤ) 2 _ _ exPattern_valid [[2, 0, 0, 3, 9], [1, 1, 0, 5, 9]] (by decide) false
  [[1, 1], [2, 1]] [[2, 3], [3, 5]] rfl rfl (by decide) (by decide)

end Verif.Props
