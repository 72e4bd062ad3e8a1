import Verif.Props.Csr
import Verif.Model.Asd

/-!
# C42: merged sparsity patterns
-/

namespace Verif.Props

open Verif.Model

/-! ### CSR from sorted keys, rectangular -/

section
variable {R : Type*} [AddCommMonoid R]

theorem sortUnique_eq (keys : List ℕ) : sortUnique keys = uniq (gather 0 keys (argsort keys)) := rfl

theorem sortUnique_sorted (keys : List ℕ) : (sortUnique keys).Pairwise (· < ·) :=
  uniq_pairwise (gather_argsort_sorted _)

theorem mem_sortUnique (keys : List ℕ) (k : ℕ) : k ∈ sortUnique keys ↔ k ∈ keys := by
  rw [sortUnique_eq, mem_uniq, (gather_argsort_perm _).mem_iff]

theorem sorted_ext {a b : List ℕ} (ha : a.Pairwise (· < ·)) (hb : b.Pairwise (· < ·)) (h : ∀ k, k ∈ a ↔ k ∈ b) : a = b := by
  apply List.Perm.eq_of_pairwise (le := fun x y : ℕ => x < y) _ ha hb
  · exact (List.perm_ext_iff_of_nodup (nodup_of_sorted ha) (nodup_of_sorted hb)).2 h
  · intro x y _ _ h1 h2
    omega

theorem sortUnique_of_sorted {keys : List ℕ} (h : keys.Pairwise (· < ·)) : sortUnique keys = keys :=
  sorted_ext (sortUnique_sorted _) h (mem_sortUnique keys)

theorem rows_of_keys (nr nc : ℕ) (u : List ℕ) (hu : u.Pairwise (· < ·)) (hub : ∀ k ∈ u, k / nc < nr) :
    repeatByPtr (ptrOfRows nr (u.map (· / nc))) = u.map (· / nc) := by
  apply repeatByPtr_ptrOfRows
  · rw [List.pairwise_map]
    exact hu.imp (fun {a b} h => Nat.div_le_div_right h.le)
  · intro r hr
    simp only [List.mem_map] at hr
    obtain ⟨k, hk, rfl⟩ := hr
    exact hub k hk

theorem coordKeys_split (nc : ℕ) (u : List ℕ) : coordKeys nc (u.map (· / nc)) (u.map (· % nc)) = u := by
  unfold coordKeys
  rw [List.zipWith_map_left, List.zipWith_map_right, List.zipWith_self]
  conv_rhs => rw [← List.map_id u]
  apply List.map_congr_left
  intro k _
  rw [Nat.mul_comm]
  exact Nat.div_add_mod k nc

/-- Dense value of the CSR matrix with sorted keys `u` and values `v`. -/
theorem todense_keys (nr nc : ℕ) (u : List ℕ) (hu : u.Pairwise (· < ·)) (hub : ∀ k ∈ u, k / nc < nr) (v : List R)
    {i j : ℕ} (hi : i < nr) (hj : j < nc) :
    (CSRMatrix.mk v (ptrOfRows nr (u.map (· / nc))) (u.map (· % nc)) nr nc).todense i j
      = segSumAt (u.zip v) (i * nc + j) := by
  unfold CSRMatrix.todense CSRMatrix.rowOfSlot
  simp only [rows_of_keys nr nc u hu hub]
  rw [if_pos ⟨hi, hj⟩, List.zip_map', List.zip_map_left, List.filter_map, List.map_map]
  unfold segSumAt
  congr 1
  have e : (fun x : (ℕ × ℕ) × R => x.2) ∘ (Prod.map (fun x => (x / nc, x % nc)) id) = fun p : ℕ × R => p.2 := rfl
  rw [e]
  congr 1
  apply List.filter_congr
  intro k _
  simp only [Function.comp, Prod.map]
  rw [Bool.eq_iff_iff]
  simp only [beq_iff_eq, Prod.mk.injEq]
  constructor
  · rintro ⟨h1, h2⟩
    rw [← h1, ← h2, Nat.mul_comm]; exact (Nat.div_add_mod k.1 nc).symm
  · intro h
    rw [h]
    exact ⟨key_div hj, key_mod hj⟩

theorem canonical_of_keys_rect (nr nc : ℕ) (u : List ℕ) (hu : u.Pairwise (· < ·)) (hub : ∀ k ∈ u, k / nc < nr)
    (hnc : u ≠ [] → 0 < nc) :
    Spec.CanonicalCSR nr nc (ptrOfRows nr (u.map (· / nc))) (u.map (· % nc)) := by
  have hs : (u.map (· / nc)).Pairwise (· ≤ ·) := by
    rw [List.pairwise_map]; exact hu.imp (fun {a b} h => Nat.div_le_div_right h.le)
  refine ⟨by simp, ?_, ?_, ?_, ?_, ?_⟩
  · rw [ptrOfRows_getD _ _ _ (by omega)]; simp
  · rw [ptrOfRows_getD _ _ _ le_rfl, List.length_map]
    have : (u.map (· / nc)).countP (· < nr) = (u.map (· / nc)).length := by
      rw [List.countP_eq_length]
      intro r hr
      simp only [List.mem_map] at hr
      obtain ⟨k, hk, rfl⟩ := hr
      simpa using hub k hk
    rw [this, List.length_map]
  · intro r hr
    rw [ptrOfRows_getD _ _ _ (by omega), ptrOfRows_getD _ _ _ (by omega), ← countP_lt_succ]
    omega
  · intro c hc
    simp only [List.mem_map] at hc
    obtain ⟨k, hk, rfl⟩ := hc
    exact Nat.mod_lt _ (hnc (List.ne_nil_of_mem hk))
  · intro r hr s t h1 h2 h3
    have hle := ptr_le_length (n := nr) (u.map (· / nc)) (r := r + 1) (by omega)
    have ht : t < (u.map (· / nc)).length := by omega
    have hs' : s < (u.map (· / nc)).length := by omega
    have e1 := (ptr_range_iff hs hr hs').mp ⟨h1, by omega⟩
    have e2 := (ptr_range_iff hs hr ht).mp ⟨by omega, h3⟩
    have htu : t < u.length := by simpa using ht
    have hsu : s < u.length := by simpa using hs'
    rw [List.getD_eq_getElem _ _ ht, List.getElem_map] at e2
    rw [List.getD_eq_getElem _ _ hs', List.getElem_map] at e1
    rw [List.getD_eq_getElem _ _ (by simpa using hsu), List.getD_eq_getElem _ _ (by simpa using htu),
      List.getElem_map, List.getElem_map]
    have hlt : u[s] < u[t] := List.pairwise_iff_getElem.mp hu s t hsu htu h2
    have d1 := Nat.div_add_mod u[s] nc
    have d2 := Nat.div_add_mod u[t] nc
    rw [e1] at d1
    rw [e2] at d2
    omega

theorem stored_iff_mem_rect (nr nc : ℕ) (u : List ℕ) (hu : u.Pairwise (· < ·))
    {i j : ℕ} (hi : i < nr) (hj : j < nc) :
    Spec.Stored (ptrOfRows nr (u.map (· / nc))) (u.map (· % nc)) i j ↔ i * nc + j ∈ u := by
  have hs : (u.map (· / nc)).Pairwise (· ≤ ·) := by
    rw [List.pairwise_map]; exact hu.imp (fun {a b} h => Nat.div_le_div_right h.le)
  constructor
  · rintro ⟨s, h1, h2, h3⟩
    have hle := ptr_le_length (n := nr) (u.map (· / nc)) (r := i + 1) (by omega)
    have hs' : s < (u.map (· / nc)).length := by omega
    have hsu : s < u.length := by simpa using hs'
    have e1 := (ptr_range_iff hs hi hs').mp ⟨h1, h2⟩
    rw [List.getD_eq_getElem _ _ hs', List.getElem_map] at e1
    rw [List.getD_eq_getElem _ _ (by simpa using hsu), List.getElem_map] at h3
    have d1 := Nat.div_add_mod u[s] nc
    rw [e1, h3, Nat.mul_comm] at d1
    rw [d1]; exact List.getElem_mem hsu
  · intro hm
    obtain ⟨s, hsu, e⟩ := List.getElem_of_mem hm
    have hs' : s < (u.map (· / nc)).length := by simpa using hsu
    have e1 : (u.map (· / nc)).getD s 0 = i := by
      rw [List.getD_eq_getElem _ _ hs', List.getElem_map, e, key_div hj]
    obtain ⟨a, b⟩ := (ptr_range_iff hs hi hs').mpr e1
    refine ⟨s, a, b, ?_⟩
    rw [List.getD_eq_getElem _ _ (by simpa using hsu), List.getElem_map, e, key_mod hj]

/-- A canonical CSR pattern is the one built from its sorted keys. -/
theorem keys_of_canonical (nr nc : ℕ) (indptr indices : List ℕ) (h : Spec.CanonicalCSR nr nc indptr indices) :
    ∃ u : List ℕ, u = coordKeys nc (repeatByPtr indptr) indices ∧ u.Pairwise (· < ·) ∧ (∀ k ∈ u, k / nc < nr) ∧
      (u ≠ [] → 0 < nc) ∧ indptr = ptrOfRows nr (u.map (· / nc)) ∧ indices = u.map (· % nc) := by
  have hrep : (repeatByPtr indptr).length = indices.length ∧ ∀ s < indices.length, ∀ r,
      (repeatByPtr indptr).getD s 0 = r ↔ (indptr.getD r 0 ≤ s ∧ s < indptr.getD (r + 1) 0 ∧ r < nr) := by
    have := repeat_prefix indptr nr h.ptr_zero h.ptr_mono nr le_rfl
    unfold repeatByPtr
    rw [h.ptr_length, Nat.add_sub_cancel, ← h.ptr_last]
    exact this
  obtain ⟨hlen, hrow⟩ := hrep
  set rows := repeatByPtr indptr with hrows
  have hmono : ∀ b, b ≤ nr → ∀ a, a ≤ b → indptr.getD a 0 ≤ indptr.getD b 0 := by
    intro b
    induction b with
    | zero => intro _ a ha; rw [Nat.le_zero.mp ha]
    | succ b ihb =>
      intro hb a ha
      rcases Nat.eq_or_lt_of_le ha with e | e
      · rw [e]
      · exact (ihb (by omega) a (by omega)).trans (h.ptr_mono b (by omega))
  have hcol : ∀ s (hs : s < indices.length), indices[s] < nc := fun s hs => h.cols_lt _ (List.getElem_mem hs)
  have hrs : ∀ s (hs : s < rows.length), indptr.getD rows[s] 0 ≤ s ∧ s < indptr.getD (rows[s] + 1) 0 ∧ rows[s] < nr := by
    intro s hs
    exact (hrow s (by omega) rows[s]).1 (List.getD_eq_getElem _ _ hs)
  have hle : ∀ s t (hs : s < rows.length) (ht : t < rows.length), s < t → rows[s] ≤ rows[t] := by
    intro s t hs ht hst
    by_contra hlt
    have h1 := hrs s hs
    have h2 := hrs t ht
    have := hmono rows[s] (by omega) (rows[t] + 1) (by omega)
    omega
  refine ⟨coordKeys nc rows indices, rfl, ?_, ?_, ?_, ?_, ?_⟩
  · rw [List.pairwise_iff_getElem]
    intro s t hs ht hst
    have hs2 : s < rows.length := by simp [coordKeys] at hs; omega
    have ht2 : t < rows.length := by simp [coordKeys] at ht; omega
    have hs3 : s < indices.length := by omega
    have ht3 : t < indices.length := by omega
    simp only [coordKeys, List.getElem_zipWith]
    rcases Nat.eq_or_lt_of_le (hle s t hs2 ht2 hst) with e | e
    · have h1 := hrs s hs2
      have h2 := hrs t ht2
      have := h.cols_sorted rows[s] h1.2.2 s t h1.1 hst (by rw [e]; exact h2.2.1)
      rw [List.getD_eq_getElem _ _ hs3, List.getD_eq_getElem _ _ ht3] at this
      rw [e]
      omega
    · have h1 := hcol s hs3
      calc rows[s] * nc + indices[s] < rows[s] * nc + nc := by omega
        _ = (rows[s] + 1) * nc := by ring
        _ ≤ rows[t] * nc := Nat.mul_le_mul_right nc e
        _ ≤ _ := by omega
  · intro k hk
    obtain ⟨s, hs, rfl⟩ := List.getElem_of_mem hk
    have hs2 : s < rows.length := by simp [coordKeys] at hs; omega
    simp only [coordKeys, List.getElem_zipWith]
    rw [key_div (hcol s (by omega))]
    exact (hrs s hs2).2.2
  · intro hne
    obtain ⟨k, hk⟩ := List.exists_mem_of_ne_nil _ hne
    obtain ⟨s, hs, rfl⟩ := List.getElem_of_mem hk
    have hs2 : s < rows.length := by simp [coordKeys] at hs; omega
    have := hcol s (by omega)
    omega
  · have hmr : (coordKeys nc rows indices).map (· / nc) = rows := by
      apply List.ext_getElem (by simp [coordKeys, hlen])
      intro s h1 h2
      simp only [coordKeys, List.getElem_map, List.getElem_zipWith]
      exact key_div (hcol s (by omega))
    rw [hmr]
    have hsorted : rows.Pairwise (· ≤ ·) := by
      rw [List.pairwise_iff_getElem]
      intro s t hs ht hst
      exact hle s t hs ht hst
    apply List.ext_getElem (by simp [h.ptr_length])
    intro r h1 h2
    have hr : r ≤ nr := by rw [h.ptr_length] at h1; omega
    rw [← List.getD_eq_getElem indptr 0 h1, ← List.getD_eq_getElem _ 0 h2, ptrOfRows_getD _ _ _ hr]
    have hcl : rows.countP (· < r) ≤ rows.length := List.countP_le_length
    have hpl : indptr.getD r 0 ≤ rows.length := by
      rw [hlen, ← h.ptr_last]; exact hmono nr le_rfl r hr
    -- the two thresholds split the slots in the same way
    have hiff : ∀ s < rows.length, s < rows.countP (· < r) ↔ s < indptr.getD r 0 := by
      intro s hs
      rw [countP_lt_of_sorted hsorted r s hs, List.getD_eq_getElem _ _ hs]
      have h1 := hrs s hs
      constructor
      · intro hlt
        have := hmono r hr (rows[s] + 1) hlt
        omega
      · intro hlt
        by_contra hge
        have := hmono rows[s] (by omega) r (by omega)
        omega
    rcases Nat.lt_trichotomy (indptr.getD r 0) (rows.countP (· < r)) with hh | hh | hh
    · exact absurd ((hiff _ (by omega)).1 hh) (by omega)
    · exact hh
    · exact absurd ((hiff _ (by omega)).2 hh) (by omega)
  · apply List.ext_getElem (by simp [coordKeys, hlen])
    intro s h1 h2
    simp only [coordKeys, List.getElem_map, List.getElem_zipWith]
    exact (key_mod (hcol s (by omega))).symm

/-! ### Scattering -/

theorem scatterAdd_length (arr : List R) (idx : List ℕ) (vals : List R) :
    (scatterAdd arr idx vals).length = arr.length := by
  unfold scatterAdd
  generalize idx.zip vals = ps
  induction ps generalizing arr with
  | nil => rfl
  | cons p ps ih => rw [List.foldl_cons, ih]; simp

theorem scatterAdd_getD (arr : List R) (idx : List ℕ) (vals : List R) (s : ℕ) (hs : s < arr.length) :
    (scatterAdd arr idx vals).getD s 0 = arr.getD s 0 + segSumAt (idx.zip vals) s := by
  unfold scatterAdd
  generalize idx.zip vals = ps
  induction ps generalizing arr with
  | nil => simp
  | cons p ps ih =>
    rw [List.foldl_cons, ih _ (by simpa using hs), segSumAt_cons, ← add_assoc]
    congr 1
    by_cases h : p.1 = s
    · subst h
      rw [if_pos rfl, List.getD_eq_getElem (arr.set _ _) _ (by simpa using hs)]
      simp
    · rw [if_neg h, add_zero, List.getD_eq_getElem?_getD, List.getElem?_set_ne h, ← List.getD_eq_getElem?_getD]

theorem segSumAt_zip_map (u : List ℕ) (hu : u.Nodup) (f : ℕ → R) (k : ℕ) :
    segSumAt (u.zip (u.map f)) k = if k ∈ u then f k else 0 := by
  unfold segSumAt
  have hz : u.zip (u.map f) = u.map fun k => (k, f k) := by
    have := List.zip_map' (f := id) (g := f) (l := u)
    rw [List.map_id] at this
    exact this
  rw [hz, List.filter_map, List.map_map]
  have h1 : (fun p : ℕ × R => p.1 == k) ∘ (fun k => (k, f k)) = fun q => q == k := rfl
  have h2 : (fun x : ℕ × R => x.2) ∘ (fun k => (k, f k)) = f := rfl
  rw [h1, h2, sum_filter_beq]
  split_ifs with h
  · rw [sum_map_ite_single hu h]
  · rw [sum_map_ite_none h]

/-! ### The merge -/

/-- The stored entries of a CSR matrix, as a pattern argument. -/
def patternOfCsr (A : CSRMatrix R) : StoredPattern :=
  ⟨A.numRows, A.numCols, (A.rowOfSlot.zip A.indices).map fun rc => (rc.1, rc.2, true)⟩

/-- Entries in range, none of them a stored zero. -/
structure PatternOk (p : StoredPattern) : Prop where
  rows : ∀ e ∈ p.entries, e.1 < p.nr
  cols : ∀ e ∈ p.entries, e.2.1 < p.nc
  nonzero : ∀ e ∈ p.entries, e.2.2 = true

/-- The keys of a pattern argument. -/
def patKeys (p : StoredPattern) : List ℕ := sortUnique (p.entries.map fun e => e.1 * p.nc + e.2.1)

theorem PatternOk.div_lt {p : StoredPattern} (h : PatternOk p) : ∀ k ∈ patKeys p, k / p.nc < p.nr := by
  intro k hk
  rw [patKeys, mem_sortUnique, List.mem_map] at hk
  obtain ⟨e, he, rfl⟩ := hk
  rw [key_div (h.cols e he)]
  exact h.rows e he

theorem PatternOk.nc_pos {p : StoredPattern} (h : PatternOk p) : patKeys p ≠ [] → 0 < p.nc := by
  intro hne
  obtain ⟨k, hk⟩ := List.exists_mem_of_ne_nil _ hne
  rw [patKeys, mem_sortUnique, List.mem_map] at hk
  obtain ⟨e, he, rfl⟩ := hk
  have := h.cols e he
  omega

theorem slotKeys_eq {p : StoredPattern} (h : PatternOk p) : (toScipyPattern p).slotKeys = patKeys p := by
  unfold BoolCsr.slotKeys toScipyPattern
  simp only
  rw [show sortUnique (p.entries.map fun e => e.1 * p.nc + e.2.1) = patKeys p from rfl,
    rows_of_keys p.nr p.nc (patKeys p) (sortUnique_sorted _) h.div_lt, coordKeys_split]

theorem compress_all {α : Type*} (xs : List α) (mask : List Bool) (hl : mask.length = xs.length) (h : ∀ b ∈ mask, b = true) :
    compress xs mask = xs := by
  unfold compress
  rw [List.filter_eq_self.2]
  · rw [List.map_fst_zip (by omega)]
  · rintro ⟨x, b⟩ hp
    exact h b (List.of_mem_zip hp).2

theorem true_keys {p : StoredPattern} (h : PatternOk p) :
    compress (toScipyPattern p).slotKeys (toScipyPattern p).vals = patKeys p := by
  rw [slotKeys_eq h]
  apply compress_all
  · simp [toScipyPattern, patKeys]
  · intro b hb
    unfold toScipyPattern at hb
    simp only [List.mem_map] at hb
    obtain ⟨k, hk, rfl⟩ := hb
    rw [mem_sortUnique, List.mem_map] at hk
    obtain ⟨e, he, rfl⟩ := hk
    rw [List.any_eq_true]
    exact ⟨e, he, by simp [h.nonzero e he]⟩

/-- The merged keys. -/
def mergedKeys (pa pb : StoredPattern) : List ℕ := sortUnique (patKeys pa ++ patKeys pb)

theorem csrSlots_ok (M : BoolCsr) (keys : List ℕ) (hk : M.slotKeys = keys) (hs : keys.Pairwise (· < ·)) (rows cols : List ℕ)
    (hin : ∀ k ∈ coordKeys M.nc rows cols, k ∈ keys) :
    csrSlots M rows cols = .ok ((coordKeys M.nc rows cols).map (searchsorted keys)) := by
  unfold csrSlots
  simp only [hk]
  split
  · rfl
  · rw [if_neg, if_pos]
    · rw [List.all_eq_true]
      rintro ⟨s, q⟩ hsq
      have hz := List.zip_map' (f := searchsorted keys) (g := id) (l := coordKeys M.nc rows cols)
      rw [List.map_id] at hz
      rw [hz, List.mem_map] at hsq
      obtain ⟨k, hk, e⟩ := hsq
      simp only [id, Prod.mk.injEq] at e
      rw [← e.1, ← e.2]
      simpa using (searchsorted_mem hs (hin k hk)).2
    · rw [Bool.not_eq_true, List.any_eq_false]
      intro s hs'
      rw [List.mem_map] at hs'
      obtain ⟨k, hk, rfl⟩ := hs'
      have := (searchsorted_mem hs (hin k hk)).1
      simpa using this

/-- What the merge returns. -/
theorem merge_ok (pa pb : StoredPattern) (ha : PatternOk pa) (hb : PatternOk pb) (hr : pa.nr = pb.nr) (hc : pa.nc = pb.nc) :
    mergeCsrPatterns pa pb = .ok
      { indptr := ptrOfRows pa.nr ((mergedKeys pa pb).map (· / pa.nc))
        indices := (mergedKeys pa pb).map (· % pa.nc)
        nnz := (mergedKeys pa pb).length
        nr := pa.nr
        nc := pa.nc
        slotsA := (patKeys pa).map (searchsorted (mergedKeys pa pb))
        slotsB := (patKeys pb).map (searchsorted (mergedKeys pa pb))
        tPerm := argsort ((mergedKeys pa pb).map fun k => (k % pa.nc) * pa.nr + k / pa.nc)
        tIndptr := ptrOfRows pa.nc (gather 0 ((mergedKeys pa pb).map (· % pa.nc))
          (argsort ((mergedKeys pa pb).map fun k => (k % pa.nc) * pa.nr + k / pa.nc)))
        tIndices := gather 0 ((mergedKeys pa pb).map (· / pa.nc))
          (argsort ((mergedKeys pa pb).map fun k => (k % pa.nc) * pa.nr + k / pa.nc)) } := by
  have hkeys : sortUnique (compress (toScipyPattern pa).slotKeys (toScipyPattern pa).vals ++
      compress (toScipyPattern pb).slotKeys (toScipyPattern pb).vals) = mergedKeys pa pb := by
    rw [true_keys ha, true_keys hb]; rfl
  have hdiv : ∀ k ∈ mergedKeys pa pb, k / pa.nc < pa.nr := by
    intro k hk
    rw [mergedKeys, mem_sortUnique, List.mem_append] at hk
    rcases hk with hk | hk
    · exact ha.div_lt k hk
    · rw [hr, hc]; exact hb.div_lt k hk
  have hM : addPatterns (toScipyPattern pa) (toScipyPattern pb) =
      { indptr := ptrOfRows pa.nr ((mergedKeys pa pb).map (· / pa.nc))
        indices := (mergedKeys pa pb).map (· % pa.nc)
        vals := (mergedKeys pa pb).map fun _ => true
        nr := pa.nr
        nc := pa.nc } := by
    unfold addPatterns
    simp only [hkeys]
    rfl
  have hrowsM := rows_of_keys pa.nr pa.nc (mergedKeys pa pb) (sortUnique_sorted _) hdiv
  have hsk : (addPatterns (toScipyPattern pa) (toScipyPattern pb)).slotKeys = mergedKeys pa pb := by
    rw [hM]
    unfold BoolCsr.slotKeys
    simp only
    rw [hrowsM, coordKeys_split]
  have hnc : (addPatterns (toScipyPattern pa) (toScipyPattern pb)).nc = pa.nc := by rw [hM]
  have hka : coordKeys pa.nc (repeatByPtr (toScipyPattern pa).indptr) (toScipyPattern pa).indices = patKeys pa :=
    slotKeys_eq ha
  have hkb : coordKeys pa.nc (repeatByPtr (toScipyPattern pb).indptr) (toScipyPattern pb).indices = patKeys pb := by
    rw [hc]; exact slotKeys_eq hb
  have hsa := csrSlots_ok _ _ hsk (sortUnique_sorted _) (repeatByPtr (toScipyPattern pa).indptr) (toScipyPattern pa).indices
    (by
      intro k hk
      rw [hnc, hka] at hk
      rw [mergedKeys, mem_sortUnique, List.mem_append]
      exact Or.inl hk)
  have hsb := csrSlots_ok _ _ hsk (sortUnique_sorted _) (repeatByPtr (toScipyPattern pb).indptr) (toScipyPattern pb).indices
    (by
      intro k hk
      rw [hnc, hkb] at hk
      rw [mergedKeys, mem_sortUnique, List.mem_append]
      exact Or.inr hk)
  rw [hnc, hka] at hsa
  rw [hnc, hkb] at hsb
  have htk : coordKeys pa.nr ((mergedKeys pa pb).map (· % pa.nc)) ((mergedKeys pa pb).map (· / pa.nc)) =
      (mergedKeys pa pb).map fun k => (k % pa.nc) * pa.nr + k / pa.nc := by
    unfold coordKeys
    rw [List.zipWith_map_left, List.zipWith_map_right, List.zipWith_self]
  unfold mergeCsrPatterns
  simp only
  rw [if_neg (by simp [toScipyPattern, hr, hc]), hsa, hsb, hM]
  simp only [bind, Except.bind, hrowsM, htk, List.length_map]

/-- C42 (pattern): whatever the storage order or duplicates of the inputs, the merged pattern is canonical (sorted,
no duplicates) and stores exactly the entries stored in either input. Missing: scipy inputs with stored zeros (`C42_stored_zero_raises`). -/
theorem C42_union_pattern_partial (pa pb : StoredPattern) (ha : PatternOk pa) (hb : PatternOk pb) (hr : pa.nr = pb.nr)
    (hc : pa.nc = pb.nc) :
    ∃ m, mergeCsrPatterns pa pb = .ok m ∧ m.nr = pa.nr ∧ m.nc = pa.nc ∧ m.nnz = m.indices.length ∧
      Spec.CanonicalCSR m.nr m.nc m.indptr m.indices ∧
      ∀ i < pa.nr, ∀ j < pa.nc, (Spec.Stored m.indptr m.indices i j ↔
        (∃ e ∈ pa.entries, e.1 = i ∧ e.2.1 = j) ∨ ∃ e ∈ pb.entries, e.1 = i ∧ e.2.1 = j) := by
  refine ⟨_, merge_ok pa pb ha hb hr hc, rfl, rfl, by simp, ?_, ?_⟩
  · apply canonical_of_keys_rect _ _ _ (sortUnique_sorted _)
    · intro k hk
      rw [mem_sortUnique, List.mem_append] at hk
      rcases hk with hk | hk
      · exact ha.div_lt k hk
      · simp only [hr, hc]; exact hb.div_lt k hk
    · intro hne
      obtain ⟨k, hk⟩ := List.exists_mem_of_ne_nil _ hne
      rw [mem_sortUnique, List.mem_append] at hk
      rcases hk with hk | hk
      · exact ha.nc_pos (List.ne_nil_of_mem hk)
      · simp only [hc]; exact hb.nc_pos (List.ne_nil_of_mem hk)
  · intro i hi j hj
    have hst := stored_iff_mem_rect pa.nr pa.nc (mergedKeys pa pb) (sortUnique_sorted _) hi hj
    have hmk : i * pa.nc + j ∈ mergedKeys pa pb ↔ i * pa.nc + j ∈ patKeys pa ∨ i * pa.nc + j ∈ patKeys pb := by
      rw [mergedKeys, mem_sortUnique, List.mem_append]
    simp only
    rw [hst, hmk]
    have aux : ∀ p : StoredPattern, PatternOk p → p.nc = pa.nc →
        (i * pa.nc + j ∈ patKeys p ↔ ∃ e ∈ p.entries, e.1 = i ∧ e.2.1 = j) := by
      intro p hp hpc
      rw [patKeys, mem_sortUnique, List.mem_map]
      constructor
      · rintro ⟨e, he, h⟩
        rw [← hpc] at h hj
        obtain ⟨h1, h2⟩ := key_inj hj (hp.cols e he) h
        exact ⟨e, he, h1, h2⟩
      · rintro ⟨e, he, h1, h2⟩
        exact ⟨e, he, by rw [h1, h2, hpc]⟩
    rw [aux pa ha rfl, aux pb hb hc.symm]

theorem patternOfCsr_ok {A : CSRMatrix R} (h : Spec.CanonicalCSR A.numRows A.numCols A.indptr A.indices) :
    PatternOk (patternOfCsr A) ∧ patKeys (patternOfCsr A) = coordKeys A.numCols A.rowOfSlot A.indices := by
  obtain ⟨u, hu, hsort, hdiv, _, hptr, hind⟩ := keys_of_canonical _ _ _ _ h
  have hrow : A.rowOfSlot = u.map (· / A.numCols) := by
    unfold CSRMatrix.rowOfSlot
    rw [hptr]
    exact rows_of_keys _ _ _ hsort hdiv
  constructor
  · unfold patternOfCsr
    refine ⟨?_, ?_, ?_⟩
    · intro e he
      simp only [List.mem_map] at he
      obtain ⟨rc, hrc, rfl⟩ := he
      have := (List.of_mem_zip hrc).1
      rw [hrow, List.mem_map] at this
      obtain ⟨k, hk, h2⟩ := this
      simp only
      rw [← h2]
      exact hdiv k hk
    · intro e he
      simp only [List.mem_map] at he
      obtain ⟨rc, hrc, rfl⟩ := he
      exact h.cols_lt _ (List.of_mem_zip hrc).2
    · intro e he
      simp only [List.mem_map] at he
      obtain ⟨rc, _, rfl⟩ := he
      rfl
  · have : ((A.rowOfSlot.zip A.indices).map fun rc => (rc.1, rc.2, true)).map (fun e => e.1 * A.numCols + e.2.1) =
        coordKeys A.numCols A.rowOfSlot A.indices := by
      rw [List.map_map]
      unfold coordKeys
      rw [List.zip, List.map_zipWith]
      rfl
    unfold patKeys patternOfCsr
    simp only
    rw [this]
    apply sortUnique_of_sorted
    rw [show A.rowOfSlot = repeatByPtr A.indptr from rfl, ← hu]
    exact hsort

theorem gather_by_keys (u : List ℕ) (tk : ℕ → ℕ) {γ : Type*} (d : γ) (g h : ℕ → γ) (hgh : ∀ k ∈ u, g k = h (tk k)) :
    gather d (u.map g) (argsort (u.map tk)) = (gather 0 (u.map tk) (argsort (u.map tk))).map h := by
  unfold gather
  rw [List.map_map]
  apply List.map_congr_left
  intro t ht
  have ht' : t < u.length := by simpa using argsort_mem.mp ht
  simp only [Function.comp]
  rw [List.getD_eq_getElem _ _ (by simpa using ht'), List.getD_eq_getElem _ _ (by simpa using ht'), List.getElem_map,
    List.getElem_map]
  exact hgh _ (List.getElem_mem ht')

/-- Transposing a CSR matrix built from sorted keys by sorting the transposed keys. -/
theorem transpose_keys (nr nc : ℕ) (u : List ℕ) (hsort : u.Pairwise (· < ·)) (hdiv : ∀ k ∈ u, k / nc < nr)
    (hpos : ∀ k ∈ u, 0 < nc) (f : ℕ → R) (hfz : ∀ k, k ∉ u → f k = 0) :
    Spec.CanonicalCSR nc nr
        (ptrOfRows nc (gather 0 (u.map (· % nc)) (argsort (u.map fun k => (k % nc) * nr + k / nc))))
        (gather 0 (u.map (· / nc)) (argsort (u.map fun k => (k % nc) * nr + k / nc))) ∧
      ∀ i < nr, ∀ j < nc,
        (CSRMatrix.mk (gather 0 (u.map f) (argsort (u.map fun k => (k % nc) * nr + k / nc)))
          (ptrOfRows nc (gather 0 (u.map (· % nc)) (argsort (u.map fun k => (k % nc) * nr + k / nc))))
          (gather 0 (u.map (· / nc)) (argsort (u.map fun k => (k % nc) * nr + k / nc))) nc nr).todense j i =
        f (i * nc + j) := by
  have hnd : u.Nodup := nodup_of_sorted hsort
  -- transpose
  set tk : ℕ → ℕ := fun k => (k % nc) * nr + k / nc with htk
  set perm := argsort (u.map tk) with hperm
  set ts := gather 0 (u.map tk) perm with hts
  have hg := fun {γ : Type _} (d : γ) (g h : ℕ → γ) (hgh : ∀ k ∈ u, g k = h (tk k)) => gather_by_keys u tk d g h hgh
  have htinj : ∀ a ∈ u, ∀ b ∈ u, tk a = tk b → a = b := by
    intro a ha b hb e
    obtain ⟨h1, h2⟩ := key_inj (hdiv b hb) (hdiv a ha) e
    rw [← Nat.div_add_mod a nc, ← Nat.div_add_mod b nc, h1, h2]
  have htsort : ts.Pairwise (· < ·) := by
    have h1 : ts.Pairwise (· ≤ ·) := gather_argsort_sorted _
    have h2 : ts.Nodup := by
      rw [hts, (gather_argsort_perm _).nodup_iff]
      exact List.Nodup.map_on htinj hnd
    exact (h1.and h2).imp (fun h => lt_of_le_of_ne h.1 h.2)
  have htmem : ∀ k, k ∈ ts ↔ ∃ q ∈ u, tk q = k := by
    intro k
    rw [hts, (gather_argsort_perm _).mem_iff, List.mem_map]
  have hdivk : ∀ k ∈ u, tk k / nr = k % nc := fun k hk => key_div (hdiv k hk)
  have hmodk : ∀ k ∈ u, tk k % nr = k / nc := fun k hk => key_mod (hdiv k hk)
  have htdiv : ∀ k ∈ ts, k / nr < nc := by
    intro k hk
    obtain ⟨q, hq, rfl⟩ := (htmem k).1 hk
    rw [hdivk q hq]
    exact Nat.mod_lt _ (hpos q hq)
  have htpos : ts ≠ [] → 0 < nr := by
    intro hne
    obtain ⟨k, hk⟩ := List.exists_mem_of_ne_nil _ hne
    obtain ⟨q, hq, rfl⟩ := (htmem k).1 hk
    exact lt_of_le_of_lt (Nat.zero_le _) (hdiv q hq)
  have e1 : gather 0 (u.map (· / nc)) perm = ts.map (· % nr) := hg 0 _ _ fun k hk => (hmodk k hk).symm
  have e2 : gather 0 (u.map (· % nc)) perm = ts.map (· / nr) := hg 0 _ _ fun k hk => (hdivk k hk).symm
  have e3 : gather 0 (u.map f) perm = ts.map (fun k => f ((k % nr) * nc + k / nr)) :=
    gather_by_keys u tk 0 _ _ fun k hk => by
      rw [hdivk k hk, hmodk k hk, Nat.mul_comm, Nat.div_add_mod]
  rw [e1, e2, e3]
  refine ⟨canonical_of_keys_rect _ _ _ htsort htdiv htpos, ?_⟩
  intro i hi j hj
  rw [todense_keys _ _ ts htsort htdiv _ hj hi, segSumAt_zip_map ts (nodup_of_sorted htsort)]
  simp only [key_div hi, key_mod hi]
  split_ifs with h
  · rfl
  · symm
    apply hfz
    intro hin
    apply h
    rw [htmem]
    refine ⟨_, hin, ?_⟩
    rw [htk]
    simp only [key_div hj, key_mod hj]

/-- C42 (values): merging the patterns of two CSR matrices of the same shape and placing their values into the
returned slots gives a well-formed CSR matrix whose dense form is the sum, and the returned transpose maps give its
transpose. -/
theorem C42_merged_is_sum (A B : CSRMatrix R) (hA : Spec.CanonicalCSR A.numRows A.numCols A.indptr A.indices)
    (hB : Spec.CanonicalCSR B.numRows B.numCols B.indptr B.indices) (hdA : A.data.length = A.indices.length)
    (hdB : B.data.length = B.indices.length) (hr : A.numRows = B.numRows) (hc : A.numCols = B.numCols) :
    ∃ m, mergeCsrPatterns (patternOfCsr A) (patternOfCsr B) = .ok m ∧
      (mergedMatrix m A.data B.data).data.length = m.indices.length ∧
      (∀ i < A.numRows, ∀ j < A.numCols,
        (mergedMatrix m A.data B.data).todense i j = A.todense i j + B.todense i j) ∧
      Spec.CanonicalCSR A.numCols A.numRows m.tIndptr m.tIndices ∧
      ∀ i < A.numRows, ∀ j < A.numCols,
        ((mergedMatrix m A.data B.data).transposeWithMaps m.tPerm m.tIndptr m.tIndices).todense j i =
          A.todense i j + B.todense i j := by
  obtain ⟨hpa, hka⟩ := patternOfCsr_ok hA
  obtain ⟨hpb, hkb⟩ := patternOfCsr_ok hB
  have hcu : (patternOfCsr A).nc = (patternOfCsr B).nc := hc
  have hru : (patternOfCsr A).nr = (patternOfCsr B).nr := hr
  refine ⟨_, merge_ok _ _ hpa hpb hru hcu, ?_⟩
  set u := mergedKeys (patternOfCsr A) (patternOfCsr B) with hu
  have hsort : u.Pairwise (· < ·) := sortUnique_sorted _
  have hnd : u.Nodup := nodup_of_sorted hsort
  have hnr : (patternOfCsr A).nr = A.numRows := rfl
  have hnc : (patternOfCsr A).nc = A.numCols := rfl
  simp only [hnr, hnc]
  have hmem : ∀ k, k ∈ u ↔ k ∈ patKeys (patternOfCsr A) ∨ k ∈ patKeys (patternOfCsr B) := by
    intro k
    rw [hu, mergedKeys, mem_sortUnique, List.mem_append]
  have hdiv : ∀ k ∈ u, k / A.numCols < A.numRows := by
    intro k hk
    rcases (hmem k).1 hk with h | h
    · exact hpa.div_lt k h
    · rw [hr, hc]; exact hpb.div_lt k h
  have hpos : ∀ k ∈ u, 0 < A.numCols := by
    intro k hk
    rcases (hmem k).1 hk with h | h
    · exact hpa.nc_pos (List.ne_nil_of_mem h)
    · rw [hc]; exact hpb.nc_pos (List.ne_nil_of_mem h)
  -- dense forms of the inputs
  have hden : ∀ (C : CSRMatrix R), Spec.CanonicalCSR C.numRows C.numCols C.indptr C.indices → ∀ i < C.numRows,
      ∀ j < C.numCols, C.todense i j = segSumAt ((patKeys (patternOfCsr C)).zip C.data) (i * C.numCols + j) := by
    intro C hC i hi j hj
    obtain ⟨v, hv, hvs, hvd, _, hptr, hind⟩ := keys_of_canonical _ _ _ _ hC
    have hk := (patternOfCsr_ok hC).2
    have e : C = CSRMatrix.mk C.data (ptrOfRows C.numRows (v.map (· / C.numCols))) (v.map (· % C.numCols)) C.numRows C.numCols := by
      rw [← hptr, ← hind]
    rw [hk, show coordKeys C.numCols C.rowOfSlot C.indices = v from hv.symm]
    conv_lhs => rw [e]
    exact todense_keys _ _ v hvs hvd C.data hi hj
  -- merged values as a function of the key
  set f : ℕ → R := fun k => segSumAt ((patKeys (patternOfCsr A)).zip A.data) k +
    segSumAt ((patKeys (patternOfCsr B)).zip B.data) k with hf
  have hrel : ∀ (ks : List ℕ), (∀ k ∈ ks, k ∈ u) → ∀ (vals : List R), ∀ s < u.length,
      segSumAt ((ks.map (searchsorted u)).zip vals) s = segSumAt (ks.zip vals) (u.getD s 0) := by
    intro ks hks vals s hs
    apply segSumAt_relabel hnd vals _ hs
    rw [List.forall₂_map_right_iff, List.forall₂_same]
    intro k hk
    exact searchsorted_mem hsort (hks k hk)
  have hdata : scatterAdd (scatterAdd (List.replicate u.length 0)
      ((patKeys (patternOfCsr A)).map (searchsorted u)) A.data)
      ((patKeys (patternOfCsr B)).map (searchsorted u)) B.data = u.map f := by
    apply List.ext_getElem (by simp [scatterAdd_length])
    intro s h1 h2
    have hs : s < u.length := by simpa using h2
    rw [← List.getD_eq_getElem _ 0 h1, scatterAdd_getD _ _ _ _ (by simpa [scatterAdd_length] using hs),
      scatterAdd_getD _ _ _ _ (by simpa using hs), hrel _ (fun k hk => (hmem k).2 (Or.inl hk)) _ s hs,
      hrel _ (fun k hk => (hmem k).2 (Or.inr hk)) _ s hs, List.getElem_map, List.getD_eq_getElem u _ hs,
      List.getD_eq_getElem _ _ (by simpa using hs)]
    simp [hf]
  have hfz : ∀ k, k ∉ u → f k = 0 := by
    intro k hk
    have : ∀ (ks : List ℕ) (vals : List R), k ∉ ks → segSumAt (ks.zip vals) k = 0 := by
      intro ks vals hn
      apply segSumAt_eq_zero
      rintro ⟨a, b⟩ hp rfl
      exact hn (List.of_mem_zip hp).1
    rw [hf]
    simp only
    rw [this _ _ (fun h => hk ((hmem k).2 (Or.inl h))), this _ _ (fun h => hk ((hmem k).2 (Or.inr h))), add_zero]
  have hsum : ∀ i < A.numRows, ∀ j < A.numCols, f (i * A.numCols + j) = A.todense i j + B.todense i j := by
    intro i hi j hj
    rw [hden A hA i hi j hj, hden B hB i (by omega) j (by omega), ← hc]
  unfold mergedMatrix
  simp only
  rw [hdata]
  refine ⟨by simp, ?_, ?_⟩
  · intro i hi j hj
    rw [todense_keys _ _ u hsort hdiv _ hi hj, segSumAt_zip_map u hnd, ← hsum i hi j hj]
    split_ifs with h
    · rfl
    · exact (hfz _ h).symm
  · obtain ⟨t1, t2⟩ := transpose_keys A.numRows A.numCols u hsort hdiv hpos f hfz
    clear_value u f
    refine ⟨t1, ?_⟩
    intro i hi j hj
    rw [← hsum i hi j hj]
    exact t2 i hi j hj

end

/-- Two overlapping 2 × 3 matrices. -/
example : Spec.CanonicalCSR 2 3 [0, 2, 3] [0, 2, 1] ∧ Spec.CanonicalCSR 2 3 [0, 1, 2] [1, 1] := by
  constructor <;> refine ⟨rfl, rfl, rfl, by decide, by decide, ?_⟩ <;> intro r hr s t h1 h2 h3 <;>
    interval_cases r <;> simp at h1 h3 ⊢ <;> (try omega) <;> (have : s = 0 ∧ t = 1 := by omega) <;> simp_all

example : (mergeCsrPatterns (patternOfCsr (⟨[1, 2, 3], [0, 2, 3], [0, 2, 1], 2, 3⟩ : CSRMatrix ℤ))
    (patternOfCsr (⟨[10, 20], [0, 1, 2], [1, 1], 2, 3⟩ : CSRMatrix ℤ))).toOption.map
      (fun m => ((m.indptr, m.indices), (mergedMatrix m [1, 2, 3] [10, 20]).data)) =
    some (([0, 3, 4], [0, 1, 2, 1]), [1, 10, 2, 23]) := by decide +kernel

/-- C42: patterns of different shapes are refused. -/
theorem C42_shape_mismatch_refused (pa pb : StoredPattern) (h : pa.nr ≠ pb.nr ∨ pa.nc ≠ pb.nc) :
    mergeCsrPatterns pa pb = .error .assertionError := by
  unfold mergeCsrPatterns
  simp only
  rw [if_pos]
  intro h'
  have h1 : pa.nr = pb.nr := congrArg Prod.fst h'
  have h2 : pa.nc = pb.nc := congrArg Prod.snd h'
  exact h.elim (fun k => k h1) fun k => k h2

example : mergeCsrPatterns ⟨2, 2, []⟩ ⟨2, 3, []⟩ = .error .assertionError := C42_shape_mismatch_refused _ _ (by decide)

/-- C42 fails for a scipy pattern with a stored zero: the sum drops the entry and looking it up raises. -/
theorem C42_stored_zero_raises :
    ∃ pa pb : StoredPattern, pa.nr = 2 ∧ pa.nc = 2 ∧ pb.nr = 2 ∧ pb.nc = 2 ∧
      (∀ e ∈ pa.entries ++ pb.entries, e.1 < 2 ∧ e.2.1 < 2) ∧
      (mergeCsrPatterns pa pb).toOption.isNone = true := by
  refine ⟨⟨2, 2, [(0, 0, true), (0, 1, false), (1, 1, true)]⟩, ⟨2, 2, [(0, 0, true)]⟩, rfl, rfl, rfl, rfl, by decide, ?_⟩
  decide +kernel

end Verif.Props
