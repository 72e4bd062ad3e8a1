import Verif.Props.Assembly
import Mathlib.Algebra.BigOperators.Ring.Finset
import Mathlib.Algebra.BigOperators.Group.Finset.Sigma
import Mathlib.Tactic.IntervalCases

/-!
# C02, C05, C06, C07: the CSR pattern, triangular views, CSR algebra, transpose maps
-/

namespace Verif.Props

open Verif.Model

set_option linter.unusedSectionVars false

/-! ## Machinery: row pointer ranges -/

theorem countP_lt_of_sorted {rows : List ℕ} (hs : rows.Pairwise (· ≤ ·)) (r s : ℕ)
    (h : s < rows.length) : s < rows.countP (· < r) ↔ rows.getD s 0 < r := by
  induction rows generalizing s with
  | nil => simp at h
  | cons x xs ih =>
    rw [List.pairwise_cons] at hs
    rw [List.countP_cons]
    by_cases hx : x < r
    · simp only [hx, decide_true, if_true]
      cases s with
      | zero => simp [hx]
      | succ s =>
        simp only [List.getD_cons_succ]
        rw [← ih hs.2 s (by simpa using h)]; omega
    · have h0 : xs.countP (· < r) = 0 := by
        rw [List.countP_eq_zero]
        intro y hy
        have := hs.1 y hy
        simp; omega
      simp only [hx, decide_false, Bool.false_eq_true, if_false, h0, Nat.add_zero]
      constructor
      · intro h; omega
      · intro hl
        exfalso
        cases s with
        | zero => simp at hl; omega
        | succ s =>
          simp only [List.getD_cons_succ] at hl
          have hlen : s < xs.length := by simpa using h
          have := hs.1 _ (getD_mem_of_lt hlen)
          omega

/-- Slots of row `r` are exactly the positions whose row is `r`. -/
theorem ptr_range_iff {n : ℕ} {rows : List ℕ} (hs : rows.Pairwise (· ≤ ·)) {r s : ℕ} (hr : r < n)
    (h : s < rows.length) :
    ((ptrOfRows n rows).getD r 0 ≤ s ∧ s < (ptrOfRows n rows).getD (r + 1) 0)
      ↔ rows.getD s 0 = r := by
  rw [ptrOfRows_getD _ _ _ (by omega), ptrOfRows_getD _ _ _ (by omega)]
  have h1 := countP_lt_of_sorted hs r s h
  have h2 := countP_lt_of_sorted hs (r + 1) s h
  omega

theorem ptr_le_length {n : ℕ} (rows : List ℕ) {r : ℕ} (hr : r ≤ n) :
    (ptrOfRows n rows).getD r 0 ≤ rows.length := by
  rw [ptrOfRows_getD _ _ _ hr]; exact List.countP_le_length

theorem canonical_of_keys (n : ℕ) (u : List ℕ) (hu : u.Pairwise (· < ·))
    (hub : ∀ k ∈ u, k / n < n) :
    Spec.CanonicalCSR n n (ptrOfRows n (u.map (· / n))) (u.map (· % n)) := by
  have hs : (u.map (· / n)).Pairwise (· ≤ ·) := by
    rw [List.pairwise_map]; exact hu.imp (fun {a b} h => Nat.div_le_div_right h.le)
  refine ⟨by simp, ?_, ?_, ?_, ?_, ?_⟩
  · rw [ptrOfRows_getD _ _ _ (by omega)]; simp
  · rw [ptrOfRows_getD _ _ _ le_rfl, List.length_map]
    have : (u.map (· / n)).countP (· < n) = (u.map (· / n)).length := by
      rw [List.countP_eq_length]
      intro r hr
      simp only [List.mem_map] at hr
      obtain ⟨k, hk, rfl⟩ := hr
      simpa using hub k hk
    rw [this, List.length_map]
  · intro r hr
    rw [ptrOfRows_getD _ _ _ (by omega), ptrOfRows_getD _ _ _ (by omega), ← countP_lt_succ]
    omega
  · intro c hc
    simp only [List.mem_map] at hc
    obtain ⟨k, hk, rfl⟩ := hc
    have := hub k hk
    exact Nat.mod_lt _ (lt_of_le_of_lt (Nat.zero_le _) this)
  · intro r hr s t h1 h2 h3
    have hle := ptr_le_length (n := n) (u.map (· / n)) (r := r + 1) (by omega)
    have ht : t < (u.map (· / n)).length := by omega
    have hs' : s < (u.map (· / n)).length := by omega
    have e1 := (ptr_range_iff hs hr hs').mp ⟨h1, by omega⟩
    have e2 := (ptr_range_iff hs hr ht).mp ⟨by omega, h3⟩
    have htu : t < u.length := by simpa using ht
    have hsu : s < u.length := by simpa using hs'
    rw [List.getD_eq_getElem _ _ ht, List.getElem_map] at e2
    rw [List.getD_eq_getElem _ _ hs', List.getElem_map] at e1
    rw [List.getD_eq_getElem _ _ (by simpa using hsu), List.getD_eq_getElem _ _ (by simpa using htu),
      List.getElem_map, List.getElem_map]
    have hlt : u[s] < u[t] := List.pairwise_iff_getElem.mp hu s t hsu htu h2
    have d1 := Nat.div_add_mod u[s] n
    have d2 := Nat.div_add_mod u[t] n
    rw [e1] at d1
    rw [e2] at d2
    omega

theorem stored_iff_mem (n : ℕ) (u : List ℕ) (hu : u.Pairwise (· < ·))
    {i j : ℕ} (hi : i < n) (hj : j < n) :
    Spec.Stored (ptrOfRows n (u.map (· / n))) (u.map (· % n)) i j ↔ i * n + j ∈ u := by
  have hs : (u.map (· / n)).Pairwise (· ≤ ·) := by
    rw [List.pairwise_map]; exact hu.imp (fun {a b} h => Nat.div_le_div_right h.le)
  constructor
  · rintro ⟨s, h1, h2, h3⟩
    have hle := ptr_le_length (n := n) (u.map (· / n)) (r := i + 1) (by omega)
    have hs' : s < (u.map (· / n)).length := by omega
    have hsu : s < u.length := by simpa using hs'
    have e1 := (ptr_range_iff hs hi hs').mp ⟨h1, h2⟩
    rw [List.getD_eq_getElem _ _ hs', List.getElem_map] at e1
    rw [List.getD_eq_getElem _ _ (by simpa using hsu), List.getElem_map] at h3
    have d1 := Nat.div_add_mod u[s] n
    rw [e1, h3, Nat.mul_comm] at d1
    rw [d1]; exact List.getElem_mem hsu
  · intro hm
    obtain ⟨s, hsu, e⟩ := List.getElem_of_mem hm
    have hs' : s < (u.map (· / n)).length := by simpa using hsu
    have e1 : (u.map (· / n)).getD s 0 = i := by
      rw [List.getD_eq_getElem _ _ hs', List.getElem_map, e, key_div hj]
    obtain ⟨a, b⟩ := (ptr_range_iff hs hi hs').mpr e1
    refine ⟨s, a, b, ?_⟩
    rw [List.getD_eq_getElem _ _ (by simpa using hsu), List.getElem_map, e, key_mod hj]

/-! ## C02 -/

section C02

variable {R : Type*} [AddCommMonoid R] {α β : Type*}
variable (p : Problem) (kv : α → Local R) (kf : ℕ → β → Local R) (cellsIn : List α)
  (facesIn : List (List β))

/-- **C02** (well formed): the exposed `(indptr, indices)` is a canonical CSR pattern. -/
theorem C02_pattern_canonical (h : p.WF) :
    Spec.CanonicalCSR p.n p.n p.maps.indptr p.maps.indices := by
  rw [p.maps_indptr, p.maps_indices]
  exact canonical_of_keys p.n p.u p.u_sorted h.u_div_lt

theorem mem_keysAll_iff_coupled (h : p.WF) (hs : Shapes p kv kf cellsIn facesIn) {i j : ℕ}
    (hj : j < p.n) :
    i * p.n + j ∈ p.keysAll ↔ Spec.Coupled (elements p kv kf cellsIn facesIn) i j := by
  rw [elems_keys _ (elements_dofs hs)]
  simp only [List.mem_flatten, List.mem_map, elemKeys]
  constructor
  · rintro ⟨l, ⟨e, he, rfl⟩, hk⟩
    simp only [List.mem_flatten, List.mem_map] at hk
    obtain ⟨l, ⟨r, hr, rfl⟩, hk⟩ := hk
    simp only [List.mem_map] at hk
    obtain ⟨c, hc, e1⟩ := hk
    have hm : e.dofs ∈ p.volInds ++ p.faceInds := by
      rw [← elements_dofs hs]; exact List.mem_map.mpr ⟨e, he, rfl⟩
    have hcn : c < p.n := by
      rcases List.mem_append.mp hm with hm | hm
      · exact h.volInds_lt _ hm c hc
      · exact h.faceInds_lt _ hm c hc
    obtain ⟨rfl, rfl⟩ := key_inj hj hcn e1
    exact ⟨e, he, hr, hc⟩
  · rintro ⟨e, he, hr, hc⟩
    refine ⟨_, ⟨e, he, rfl⟩, ?_⟩
    simp only [List.mem_flatten, List.mem_map]
    exact ⟨_, ⟨i, hr, rfl⟩, List.mem_map.mpr ⟨j, hc, rfl⟩⟩

/-- **C02** (contents): an entry is stored iff some element couples it and the view keeps it. -/
theorem C02_stored_iff_coupled (h : p.WF) (hs : Shapes p kv kf cellsIn facesIn) (i j : ℕ)
    (hi : i < p.n) (hj : j < p.n) :
    Spec.Stored p.maps.indptr p.maps.indices i j
      ↔ p.view.keep i j = true ∧ Spec.Coupled (elements p kv kf cellsIn facesIn) i j := by
  rw [p.maps_indptr, p.maps_indices, stored_iff_mem p.n p.u p.u_sorted hi hj, h.key_mem_u hj,
    mem_keysAll_iff_coupled p kv kf cellsIn facesIn h hs hj]

/-- **C02** (every contribution has exactly one slot, at its own coordinates): raw entry `t` of the
full index arrays goes to a slot whose stored row and column are its own, and no other slot has
those coordinates; entries the view drops go to the discard bucket `nse`. -/
theorem C02_entry_slot (h : p.WF) (t : ℕ) (ht : t < p.I.length) :
    if p.view.keep (p.I.getD t 0) (p.J.getD t 0) = true then
      p.maps.fullSlot.getD t 0 < p.maps.nse ∧
      p.maps.rowOfSlot.getD (p.maps.fullSlot.getD t 0) 0 = p.I.getD t 0 ∧
      p.maps.indices.getD (p.maps.fullSlot.getD t 0) 0 = p.J.getD t 0 ∧
      ∀ s < p.maps.nse, p.maps.rowOfSlot.getD s 0 = p.I.getD t 0 →
        p.maps.indices.getD s 0 = p.J.getD t 0 → s = p.maps.fullSlot.getD t 0
    else p.maps.fullSlot.getD t 0 = p.maps.nse := by
  have ht2 : t < p.J.length := by rw [← p.I_length]; exact ht
  have hJ : p.J.getD t 0 < p.n := h.J_lt _ (getD_mem_of_lt ht2)
  have e : p.maps.fullSlot.getD t 0
      = fullSlotOf p.u p.u.length (p.I.getD t 0 * p.n + p.J.getD t 0) := by
    rw [p.maps_fullSlot, ← p.keysAll_getD t ht]
    have : t < p.keysAll.length := by rw [p.keysAll_length]; exact ht
    simp [List.getD_eq_getElem?_getD, this]
  rw [e, p.maps_nse, p.maps_rowOfSlot, p.maps_indices]
  have spec := fullSlotOf_spec p.u_sorted (p.I.getD t 0 * p.n + p.J.getD t 0)
  have hmem : p.I.getD t 0 * p.n + p.J.getD t 0 ∈ p.keysAll := by
    rw [← p.keysAll_getD t ht]; exact getD_mem_of_lt (by rw [p.keysAll_length]; exact ht)
  generalize fullSlotOf p.u p.u.length (p.I.getD t 0 * p.n + p.J.getD t 0) = s0 at *
  split_ifs with hk
  · have hu := (h.key_mem_u (i := p.I.getD t 0) hJ).mpr ⟨hk, hmem⟩
    rcases spec with ⟨h1, h2⟩ | ⟨_, h2⟩
    · have g1 : ∀ s, s < p.u.length → ∀ f : ℕ → ℕ, (p.u.map f).getD s 0 = f (p.u.getD s 0) := by
        intro s hs f
        simp [List.getD_eq_getElem?_getD, hs]
      refine ⟨h1, ?_, ?_, ?_⟩
      · rw [g1 s0 h1, h2, key_div hJ]
      · rw [g1 s0 h1, h2, key_mod hJ]
      · intro s hs hr hc
        rw [g1 s hs] at hr hc
        apply getD_inj_of_nodup p.u_nodup hs h1
        rw [h2, ← hr, ← hc, Nat.mul_comm]
        exact (Nat.div_add_mod _ _).symm
    · exact absurd hu h2
  · rcases spec with ⟨h1, h2⟩ | ⟨h1, _⟩
    · exfalso
      apply hk
      refine ((h.key_mem_u (i := p.I.getD t 0) hJ).mp ?_).1
      rw [← h2]; exact getD_mem_of_lt h1
    · exact h1

/-- **C02** (count): `nse` is the number of distinct coupled pairs kept by the view. -/
theorem C02_nse_counts_pairs (h : p.WF) (hs : Shapes p kv kf cellsIn facesIn) (S : Finset (ℕ × ℕ))
    (hS : ∀ i j, (i, j) ∈ S ↔ i < p.n ∧ j < p.n ∧ p.view.keep i j = true ∧
      Spec.Coupled (elements p kv kf cellsIn facesIn) i j) :
    p.maps.nse = S.card := by
  rw [p.maps_nse, ← List.toFinset_card_of_nodup p.u_nodup]
  symm
  apply Finset.card_bij (fun (q : ℕ × ℕ) _ => q.1 * p.n + q.2)
  · rintro ⟨i, j⟩ hq
    obtain ⟨hi, hj, hk, hc⟩ := (hS i j).mp hq
    rw [List.mem_toFinset]
    exact (h.key_mem_u hj).mpr ⟨hk, (mem_keysAll_iff_coupled p kv kf cellsIn facesIn h hs hj).mpr hc⟩
  · rintro ⟨i, j⟩ hq ⟨i', j'⟩ hq' e
    obtain ⟨rfl, rfl⟩ := key_inj ((hS i' j').mp hq').2.1 ((hS i j).mp hq).2.1 e
    rfl
  · intro k hk
    rw [List.mem_toFinset] at hk
    have hlt := h.u_div_lt k hk
    have hj : k % p.n < p.n := Nat.mod_lt _ (lt_of_le_of_lt (Nat.zero_le _) hlt)
    have ek : k / p.n * p.n + k % p.n = k := by rw [Nat.mul_comm]; exact Nat.div_add_mod k p.n
    refine ⟨(k / p.n, k % p.n), ?_, ek⟩
    rw [hS]
    have hk' : k / p.n * p.n + k % p.n ∈ p.u := by rw [ek]; exact hk
    obtain ⟨a, b⟩ := (h.key_mem_u hj).mp hk'
    exact ⟨hlt, hj, a, (mem_keysAll_iff_coupled p kv kf cellsIn facesIn h hs hj).mp b⟩

end C02

/-! ## C05 -/

section C05

variable {R : Type*} [CommRing R] {α β : Type*}
variable (p : Problem) (kv : α → Local R) (kf : ℕ → β → Local R) (zv : α) (zf : β)
  (cellsIn : List α) (facesIn : List (List β)) (batch : ℕ)

/-- The same problem with another matrix view. -/
def withView (p : Problem) (v : MatrixView) : Problem := { p with view := v }

theorem withView_wf {p : Problem} (h : p.WF) (v : MatrixView) : (withView p v).WF :=
  ⟨h.vars, h.faces⟩

theorem withView_shapes {p : Problem} {kv : α → Local R} {kf : ℕ → β → Local R} {cellsIn : List α}
    {facesIn : List (List β)} (hs : Shapes p kv kf cellsIn facesIn) (v : MatrixView) :
    Shapes (withView p v) kv kf cellsIn facesIn :=
  ⟨hs.cells, hs.faces, hs.volJac, hs.volRes, hs.faceJac, hs.faceRes⟩

/-- **C05** (storage). The UPPER (LOWER) view stores the full matrix on and above (below) the
diagonal and zero elsewhere. -/
theorem C05_view_is_triangle (h : p.WF) (hs : Shapes p kv kf cellsIn facesIn) (hb : 0 < batch)
    (i j : ℕ) (hi : i < p.n) (hj : j < p.n) :
    (getJacobian (withView p .upper) kv kf zv zf cellsIn facesIn false batch).todense i j
      = (if i ≤ j then
          (getJacobian (withView p .full) kv kf zv zf cellsIn facesIn false batch).todense i j
        else 0) ∧
    (getJacobian (withView p .lower) kv kf zv zf cellsIn facesIn false batch).todense i j
      = (if j ≤ i then
          (getJacobian (withView p .full) kv kf zv zf cellsIn facesIn false batch).todense i j
        else 0) := by
  have key : ∀ v, (getJacobian (withView p v) kv kf zv zf cellsIn facesIn false batch).todense i j
      = if v.keep i j then Spec.assembledMat (elements p kv kf cellsIn facesIn) i j else 0 :=
    fun v => C01_jacobian_is_dense_sum (withView p v) kv kf zv zf cellsIn facesIn batch
      (withView_wf h v) (withView_shapes hs v) hb i j hi hj
  rw [key, key, key]
  simp [MatrixView.keep]

end C05

/-! ## C06 -/

section C06

variable {R : Type*} [CommRing R]

theorem repeat_prefix (ptr : List ℕ) (n : ℕ) (h0 : ptr.getD 0 0 = 0)
    (hm : ∀ r, r < n → ptr.getD r 0 ≤ ptr.getD (r + 1) 0) :
    ∀ k ≤ n,
      (((List.range k).map (fun r => List.replicate (ptr.getD (r + 1) 0 - ptr.getD r 0) r)).flatten).length
        = ptr.getD k 0 ∧
      ∀ s < ptr.getD k 0, ∀ r,
        (((List.range k).map
          (fun r => List.replicate (ptr.getD (r + 1) 0 - ptr.getD r 0) r)).flatten).getD s 0 = r ↔
        (ptr.getD r 0 ≤ s ∧ s < ptr.getD (r + 1) 0 ∧ r < k) := by
  intro k
  induction k with
  | zero =>
    intro _
    rw [h0]
    exact ⟨rfl, fun s hs => absurd hs (by omega)⟩
  | succ k ih =>
    intro hk
    obtain ⟨il, ig⟩ := ih (by omega)
    have hmono : ∀ b, b ≤ k + 1 → ∀ a, a ≤ b → ptr.getD a 0 ≤ ptr.getD b 0 := by
      intro b
      induction b with
      | zero => intro _ a ha; rw [Nat.le_zero.mp ha]
      | succ b ihb =>
        intro hb a ha
        rcases Nat.eq_or_lt_of_le ha with e | e
        · rw [e]
        · exact (ihb (by omega) a (by omega)).trans (hm b (by omega))
    have hstep := hm k (by omega)
    rw [List.range_succ, List.map_append, List.flatten_append]
    set L := ((List.range k).map
      (fun r => List.replicate (ptr.getD (r + 1) 0 - ptr.getD r 0) r)).flatten with hL
    simp only [List.map_cons, List.map_nil, List.flatten_cons, List.flatten_nil, List.append_nil]
    refine ⟨by rw [List.length_append, il, List.length_replicate]; omega, ?_⟩
    intro s hs r
    by_cases hsk : s < ptr.getD k 0
    · rw [List.getD_append _ _ _ _ (by rw [il]; exact hsk), ig s hsk r]
      constructor
      · rintro ⟨a, b, c⟩; exact ⟨a, b, by omega⟩
      · rintro ⟨a, b, c⟩
        refine ⟨a, b, ?_⟩
        rcases Nat.lt_or_ge r k with h | h
        · exact h
        · have : r = k := by omega
          subst this; omega
    · rw [List.getD_append_right _ _ _ _ (by rw [il]; omega), il]
      have : (List.replicate (ptr.getD (k + 1) 0 - ptr.getD k 0) k).getD (s - ptr.getD k 0) 0 = k := by
        rw [List.getD_eq_getElem _ _ (by rw [List.length_replicate]; omega), List.getElem_replicate]
      rw [this]
      constructor
      · rintro rfl; exact ⟨by omega, hs, by omega⟩
      · rintro ⟨a, b, c⟩
        rcases Nat.lt_or_ge r k with h | h
        · have := hmono k (by omega) (r + 1) (by omega)
          omega
        · omega

/-- The row of every slot, from the pointer ranges. -/
theorem rowOfSlot_spec {A : CSRMatrix R}
    (h : Spec.CanonicalCSR A.numRows A.numCols A.indptr A.indices) :
    A.rowOfSlot.length = A.indices.length ∧
    ∀ s < A.indices.length, ∀ r,
      A.rowOfSlot.getD s 0 = r ↔
        (A.indptr.getD r 0 ≤ s ∧ s < A.indptr.getD (r + 1) 0 ∧ r < A.numRows) := by
  have := repeat_prefix A.indptr A.numRows h.ptr_zero h.ptr_mono A.numRows le_rfl
  unfold CSRMatrix.rowOfSlot repeatByPtr
  rw [h.ptr_length, Nat.add_sub_cancel, ← h.ptr_last]
  exact this

/-- Internal form of well-formedness (proof machinery). -/
structure CSRWF (A : CSRMatrix R) : Prop where
  ptr : A.indptr.length = A.numRows + 1
  rows : A.rowOfSlot.length = A.indices.length
  data : A.data.length = A.indices.length
  cols : ∀ c ∈ A.indices, c < A.numCols

/-- A well-formed CSR matrix: canonical pattern and one value per slot. -/
structure WellFormed (A : CSRMatrix R) : Prop where
  pattern : Spec.CanonicalCSR A.numRows A.numCols A.indptr A.indices
  data : A.data.length = A.indices.length

theorem WellFormed.wf {A : CSRMatrix R} (h : WellFormed A) : CSRWF A :=
  ⟨h.pattern.ptr_length, (rowOfSlot_spec h.pattern).1, h.data, h.pattern.cols_lt⟩

theorem rowOfSlot_lt {A : CSRMatrix R} (h : CSRWF A) : ∀ r ∈ A.rowOfSlot, r < A.numRows := by
  intro r hr
  simp only [CSRMatrix.rowOfSlot, repeatByPtr, List.mem_flatten, List.mem_map, List.mem_range] at hr
  obtain ⟨l, ⟨q, hq, rfl⟩, hr⟩ := hr
  rw [List.eq_of_mem_replicate hr]
  have := h.ptr
  omega

/-- Dense entry as a sum over slots. -/
theorem todense_eq_sum {A : CSRMatrix R} (h : CSRWF A) {i j : ℕ} (hi : i < A.numRows)
    (hj : j < A.numCols) :
    A.todense i j = ∑ s ∈ Finset.range A.indices.length,
      if A.rowOfSlot.getD s 0 = i ∧ A.indices.getD s 0 = j then A.data.getD s 0 else 0 := by
  unfold CSRMatrix.todense
  rw [if_pos ⟨hi, hj⟩]
  have hz : (A.rowOfSlot.zip A.indices).zip A.data = (List.range A.indices.length).map
      (fun s => ((A.rowOfSlot.getD s 0, A.indices.getD s 0), A.data.getD s 0)) := by
    rw [zip_eq_range_map 0 0 A.rowOfSlot A.indices h.rows,
      zip_eq_range_map (0, 0) 0 _ A.data (by simp [h.data, h.rows])]
    simp only [List.length_map, List.length_range, h.rows]
    apply List.map_congr_left
    intro s hs
    have hs' : s < A.indices.length := by simpa using hs
    simp [List.getD_eq_getElem?_getD, hs']
  rw [hz, List.filter_map, List.map_map, ← sum_range_list]
  generalize List.range A.indices.length = l
  induction l with
  | nil => rfl
  | cons x xs ih =>
    rw [List.map_cons, List.sum_cons, ← ih, List.filter_cons]
    by_cases hx : A.rowOfSlot.getD x 0 = i ∧ A.indices.getD x 0 = j
    · have : ((fun p : (ℕ × ℕ) × R => p.1 == (i, j)) ∘ fun s =>
          ((A.rowOfSlot.getD s 0, A.indices.getD s 0), A.data.getD s 0)) x = true := by
        simp only [Function.comp, beq_iff_eq, Prod.mk.injEq]; exact hx
      rw [if_pos this, if_pos hx]; rfl
    · have : ¬ ((fun p : (ℕ × ℕ) × R => p.1 == (i, j)) ∘ fun s =>
          ((A.rowOfSlot.getD s 0, A.indices.getD s 0), A.data.getD s 0)) x = true := by
        simp only [Function.comp, beq_iff_eq, Prod.mk.injEq]; exact hx
      rw [if_neg this, if_neg hx, zero_add]

theorem getD_zipWith_mul (a b : List R) (h : a.length = b.length) (s : ℕ) :
    (List.zipWith (· * ·) a b).getD s 0 = a.getD s 0 * b.getD s 0 := by
  by_cases hs : s < a.length
  · have hs' : s < b.length := by omega
    simp [List.getD_eq_getElem?_getD, hs, hs']
  · have e1 : a[s]? = none := by simpa using hs
    have e2 : b[s]? = none := by simpa [h] using hs
    simp [List.getD_eq_getElem?_getD, e1, e2, List.getElem?_zipWith]

/-- **C06** (`todense`): a stored entry holds the value of its slot, every other entry is zero. -/
theorem C06_todense (A : CSRMatrix R) (hA : WellFormed A) (i j : ℕ) (hi : i < A.numRows)
    (hj : j < A.numCols) :
    (∀ s, A.indptr.getD i 0 ≤ s → s < A.indptr.getD (i + 1) 0 → A.indices.getD s 0 = j →
      A.todense i j = A.data.getD s 0) ∧
    (¬ Spec.Stored A.indptr A.indices i j → A.todense i j = 0) := by
  have hsp := rowOfSlot_spec hA.pattern
  have hmono : ∀ b, b ≤ A.numRows → ∀ a, a ≤ b → A.indptr.getD a 0 ≤ A.indptr.getD b 0 := by
    intro b
    induction b with
    | zero => intro _ a ha; rw [Nat.le_zero.mp ha]
    | succ b ihb =>
      intro hb a ha
      rcases Nat.eq_or_lt_of_le ha with e | e
      · rw [e]
      · exact (ihb (by omega) a (by omega)).trans (hA.pattern.ptr_mono b (by omega))
  have hlast : ∀ r, r ≤ A.numRows → A.indptr.getD r 0 ≤ A.indices.length := by
    intro r hr
    rw [← hA.pattern.ptr_last]; exact hmono _ le_rfl r hr
  rw [todense_eq_sum hA.wf hi hj]
  constructor
  · intro s h1 h2 h3
    have hs : s < A.indices.length := lt_of_lt_of_le h2 (hlast _ (by omega))
    rw [Finset.sum_eq_single s]
    · rw [if_pos ⟨(hsp.2 s hs i).mpr ⟨h1, h2, hi⟩, h3⟩]
    · intro t ht hts
      rw [if_neg]
      rintro ⟨e1, e2⟩
      obtain ⟨a, b, _⟩ := (hsp.2 t (by simpa using ht) i).mp e1
      rcases Nat.lt_or_gt_of_ne hts with h | h
      · have := hA.pattern.cols_sorted i hi t s a h h2; omega
      · have := hA.pattern.cols_sorted i hi s t h1 h b; omega
    · intro hn; exact absurd (Finset.mem_range.mpr hs) hn
  · intro hn
    apply Finset.sum_eq_zero
    intro s hs
    rw [if_neg]
    rintro ⟨e1, e2⟩
    obtain ⟨a, b, _⟩ := (hsp.2 s (by simpa using hs) i).mp e1
    exact hn ⟨s, a, b, e2⟩

/-- **C06** (`A @ x`). -/
theorem C06_matvec (A : CSRMatrix R) (hA : WellFormed A) (v : List R) (i : ℕ) (hi : i < A.numRows) :
    (A.matvec v).getD i 0 = ∑ j ∈ Finset.range A.numCols, A.todense i j * v.getD j 0 := by
  have h := hA.wf
  unfold CSRMatrix.matvec
  rw [segmentSum_getD _ _ _ _ hi, segSumAt_zip_range _ _ (by simp [h.rows, h.data])]
  have h1 : ∀ j ∈ Finset.range A.numCols, A.todense i j * v.getD j 0
      = ∑ s ∈ Finset.range A.indices.length,
        (if A.rowOfSlot.getD s 0 = i ∧ A.indices.getD s 0 = j then A.data.getD s 0 else 0)
          * v.getD j 0 := by
    intro j hj
    rw [todense_eq_sum h hi (by simpa using hj), Finset.sum_mul]
  rw [Finset.sum_congr rfl h1, Finset.sum_comm, h.rows]
  apply Finset.sum_congr rfl
  intro s hs
  have hs' : s < A.indices.length := by simpa using hs
  rw [getD_zipWith_mul _ _ (by simp [h.data]), gather_getD _ _ _ _ hs']
  have hc := h.cols _ (getD_mem_of_lt hs')
  by_cases hr : A.rowOfSlot.getD s 0 = i
  · simp only [hr, if_true, true_and]
    rw [Finset.sum_eq_single (A.indices.getD s 0)]
    · simp
    · intro b _ hb
      rw [if_neg (Ne.symm hb), zero_mul]
    · intro hn; exact absurd (Finset.mem_range.mpr hc) hn
  · rw [if_neg hr]
    symm
    apply Finset.sum_eq_zero
    intro b _
    rw [if_neg (by tauto), zero_mul]

/-- **C06** (`A.T @ w` through `rmatvec`). -/
theorem C06_rmatvec (A : CSRMatrix R) (hA : WellFormed A) (w : List R) (j : ℕ) (hj : j < A.numCols) :
    (A.rmatvec w).getD j 0 = ∑ i ∈ Finset.range A.numRows, A.todense i j * w.getD i 0 := by
  have h := hA.wf
  unfold CSRMatrix.rmatvec
  rw [segmentSum_getD _ _ _ _ hj, segSumAt_zip_range _ _ (by simp [h.rows, h.data])]
  have h1 : ∀ i ∈ Finset.range A.numRows, A.todense i j * w.getD i 0
      = ∑ s ∈ Finset.range A.indices.length,
        (if A.rowOfSlot.getD s 0 = i ∧ A.indices.getD s 0 = j then A.data.getD s 0 else 0)
          * w.getD i 0 := by
    intro i hi
    rw [todense_eq_sum h (by simpa using hi) hj, Finset.sum_mul]
  rw [Finset.sum_congr rfl h1, Finset.sum_comm]
  apply Finset.sum_congr rfl
  intro s hs
  have hs' : s < A.indices.length := by simpa using hs
  have hsr : s < A.rowOfSlot.length := by rw [h.rows]; exact hs'
  rw [getD_zipWith_mul _ _ (by simp [h.rows, h.data]), gather_getD _ _ _ _ hsr]
  have hr := rowOfSlot_lt h _ (getD_mem_of_lt hsr)
  by_cases hc : A.indices.getD s 0 = j
  · simp only [hc, if_true, and_true]
    rw [Finset.sum_eq_single (A.rowOfSlot.getD s 0)]
    · simp
    · intro b _ hb
      rw [if_neg (Ne.symm hb), zero_mul]
    · intro hn; exact absurd (Finset.mem_range.mpr hr) hn
  · rw [if_neg hc]
    symm
    apply Finset.sum_eq_zero
    intro b _
    rw [if_neg (by tauto), zero_mul]

/-- **C06** (`A.diagonal()`), for a square matrix. -/
theorem C06_diagonal (A : CSRMatrix R) (hA : WellFormed A) (hsq : A.numCols = A.numRows) (i : ℕ)
    (hi : i < A.numRows) : A.diagonal.getD i 0 = A.todense i i := by
  have h := hA.wf
  unfold CSRMatrix.diagonal
  rw [segmentSum_getD _ _ _ _ hi, segSumAt_zip_range _ _ (by simp [h.rows, h.data]),
    todense_eq_sum h hi (by omega), h.rows]
  apply Finset.sum_congr rfl
  intro s hs
  have hs' : s < A.indices.length := by simpa using hs
  have hsr : s < A.rowOfSlot.length := by rw [h.rows]; exact hs'
  have hsd : s < A.data.length := by rw [h.data]; exact hs'
  have e : (List.zipWith (fun (rc : ℕ × ℕ) x => if rc.1 = rc.2 then x else 0)
      (A.rowOfSlot.zip A.indices) A.data).getD s 0
      = if A.rowOfSlot.getD s 0 = A.indices.getD s 0 then A.data.getD s 0 else 0 := by
    simp [List.getD_eq_getElem?_getD, hs', hsr, hsd]
  rw [e]
  by_cases h1 : A.rowOfSlot.getD s 0 = i
  · by_cases h2 : A.indices.getD s 0 = i
    · rw [if_pos h1, h1, h2]; simp
    · rw [if_pos h1, h1, if_neg (Ne.symm h2), if_neg (by tauto)]
  · rw [if_neg h1, if_neg (by tauto)]

/-- **C06** (`A.T`): the lazy transpose denotes the transposed dense matrix and its product is the
product with that matrix. -/
theorem C06_transpose_view (A : CSRMatrix R) (hA : WellFormed A) :
    (∀ i j, (CSRTranspose.mk A).todense i j = A.todense j i) ∧
    ∀ w i, i < A.numCols → ((CSRTranspose.mk A).matvec w).getD i 0
      = ∑ j ∈ Finset.range A.numRows, (CSRTranspose.mk A).todense i j * w.getD j 0 :=
  ⟨fun _ _ => rfl, fun w i hi => C06_rmatvec A hA w i hi⟩

/-- **C06** (result lengths and shape of `todense`). -/
theorem C06_shapes (A : CSRMatrix R) (v : List R) :
    (A.matvec v).length = A.numRows ∧ (A.rmatvec v).length = A.numCols ∧
    A.diagonal.length = A.numRows ∧
    ∀ i j, ¬ (i < A.numRows ∧ j < A.numCols) → A.todense i j = 0 := by
  refine ⟨by simp [CSRMatrix.matvec], by simp [CSRMatrix.rmatvec], by simp [CSRMatrix.diagonal], ?_⟩
  intro i j h
  unfold CSRMatrix.todense
  rw [if_neg h]

/-- **C05** (use). If `U` stores the upper triangle of a symmetric `D`, the product the iterative
solvers compute from `U` is the product with `D`. -/
theorem C05_triangular_matvec (U : CSRMatrix R) (h : WellFormed U) (hsq : U.numCols = U.numRows)
    (D : ℕ → ℕ → R) (hsym : ∀ i j, D i j = D j i)
    (hU : ∀ i j, i < U.numRows → j < U.numRows → U.todense i j = if i ≤ j then D i j else 0)
    (v : List R) (hv : v.length = U.numRows) (i : ℕ) (hi : i < U.numRows) :
    (U.matvecWithTriangularView v).getD i 0 = ∑ j ∈ Finset.range U.numRows, D i j * v.getD j 0 := by
  have l1 : i < (U.matvec v).length := by rw [(C06_shapes U v).1]; exact hi
  have l2 : i < (U.rmatvec v).length := by rw [(C06_shapes U v).2.1]; omega
  have l3 : i < U.diagonal.length := by rw [(C06_shapes U v).2.2.1]; exact hi
  have l4 : i < v.length := by omega
  have e : (U.matvecWithTriangularView v).getD i 0
      = (U.matvec v).getD i 0 + (U.rmatvec v).getD i 0 - U.diagonal.getD i 0 * v.getD i 0 := by
    simp [CSRMatrix.matvecWithTriangularView, List.getD_eq_getElem?_getD, l1, l2, l3, l4]
  rw [e, C06_matvec U h v i hi, C06_rmatvec U h v i (by omega), C06_diagonal U h hsq i hi, hsq,
    hU i i hi hi, if_pos le_rfl, ← Finset.sum_add_distrib]
  have hsplit : D i i * v.getD i 0 = ∑ j ∈ Finset.range U.numRows,
      if j = i then D i j * v.getD j 0 else 0 := by
    rw [Finset.sum_ite_eq' (Finset.range U.numRows) i (fun j => D i j * v.getD j 0),
      if_pos (Finset.mem_range.mpr hi)]
  rw [hsplit, ← Finset.sum_sub_distrib]
  apply Finset.sum_congr rfl
  intro j hj
  have hj' : j < U.numRows := by simpa using hj
  rw [hU i j hi hj', hU j i hj' hi, hsym j i]
  rcases Nat.lt_trichotomy i j with h1 | h1 | h1
  · rw [if_pos (by omega), if_neg (by omega), if_neg (by omega)]; ring
  · subst h1; simp
  · rw [if_neg (by omega), if_pos (by omega), if_neg (by omega)]; ring

end C06

/-! ## C07 -/

section C07

variable {R : Type*} [AddCommMonoid R]

theorem Problem.maps_tPerm (p : Problem) : p.maps.tPerm = argsort (tkeys p.n p.u) :=
  build_tPerm _ _ _ _ _

theorem Problem.maps_tIndices (p : Problem) :
    p.maps.tIndices = gather 0 (p.u.map (· / p.n)) (argsort (tkeys p.n p.u)) :=
  build_tIndices _ _ _ _ _

theorem Problem.maps_tIndptr (p : Problem) :
    p.maps.tIndptr = ptrOfRows p.n (gather 0 (p.u.map (· % p.n)) (argsort (tkeys p.n p.u))) :=
  build_tIndptr _ _ _ _ _

theorem tkeys_eq (n : ℕ) (u : List ℕ) : tkeys n u = u.map (fun k => (k % n) * n + k / n) := by
  unfold tkeys coordKeys
  rw [List.zipWith_map_left, List.zipWith_map_right, List.zipWith_self]

/-- Sorted transposed keys. -/
def tsorted (n : ℕ) (u : List ℕ) : List ℕ := gather 0 (tkeys n u) (argsort (tkeys n u))

theorem tkey_inj {n a b : ℕ} (ha : a / n < n) (hb : b / n < n)
    (h : (a % n) * n + a / n = (b % n) * n + b / n) : a = b := by
  obtain ⟨h1, h2⟩ := key_inj hb ha h
  rw [← Nat.div_add_mod a n, ← Nat.div_add_mod b n, h1, h2]

theorem tsorted_sorted (n : ℕ) (u : List ℕ) (hu : u.Pairwise (· < ·)) (hub : ∀ k ∈ u, k / n < n) :
    (tsorted n u).Pairwise (· < ·) := by
  have h1 : (tsorted n u).Pairwise (· ≤ ·) := gather_argsort_sorted _
  have h2 : (tsorted n u).Nodup := by
    rw [tsorted, (gather_argsort_perm _).nodup_iff, tkeys_eq]
    apply List.Nodup.map_on _ (nodup_of_sorted hu)
    intro a ha b hb e
    exact tkey_inj (hub a ha) (hub b hb) e
  exact (h1.and h2).imp (fun h => lt_of_le_of_ne h.1 h.2)

theorem gather_map_of_tkeys (n : ℕ) (u : List ℕ) {γ : Type*} (d : γ) (f g : ℕ → γ)
    (h : ∀ k ∈ u, f k = g ((k % n) * n + k / n)) :
    gather d (u.map f) (argsort (tkeys n u)) = (tsorted n u).map g := by
  unfold tsorted gather
  rw [List.map_map]
  apply List.map_congr_left
  intro t ht
  have ht' : t < u.length := by
    have := argsort_mem.mp ht
    rw [tkeys_eq] at this
    simpa using this
  simp only [Function.comp]
  rw [tkeys_eq]
  simp only [List.getD_eq_getElem?_getD, List.getElem?_map, List.getElem?_eq_getElem ht',
    Option.map_some, Option.getD_some]
  exact h _ (List.getElem_mem ht')

/-- **C07**. For every value array, gathering by the precomputed permutation over the precomputed
transposed pattern gives a well-formed CSR matrix whose dense form is the transpose. -/
theorem C07_transpose_maps (p : Problem) (h : p.WF) (data : List R) (hd : data.length = p.maps.nse) :
    WellFormed ((CSRMatrix.mk data p.maps.indptr p.maps.indices p.n p.n).transposeWithMaps
      p.maps.tPerm p.maps.tIndptr p.maps.tIndices) ∧
    ∀ i j, i < p.n → j < p.n →
      ((CSRMatrix.mk data p.maps.indptr p.maps.indices p.n p.n).transposeWithMaps
        p.maps.tPerm p.maps.tIndptr p.maps.tIndices).todense i j
      = (CSRMatrix.mk data p.maps.indptr p.maps.indices p.n p.n).todense j i := by
  rw [p.maps_nse] at hd
  have hub := h.u_div_lt
  have hu := p.u_sorted
  rw [Problem.maps_tPerm, Problem.maps_tIndices, Problem.maps_tIndptr, p.maps_indptr, p.maps_indices]
  generalize p.n = n at *
  generalize p.u = u at *
  -- values as a function of keys
  obtain ⟨f, hf⟩ : ∃ f : ℕ → R, data = u.map f := by
    refine ⟨fun k => data.getD (u.idxOf k) 0, ?_⟩
    apply List.ext_getElem (by simpa using hd)
    intro s h1 h2
    have hs : s < u.length := by omega
    rw [List.getElem_map, (nodup_of_sorted hu).idxOf_getElem s hs, List.getD_eq_getElem _ _ h1]
  have hmod : ∀ k ∈ u, k % n < n := fun k hk =>
    Nat.mod_lt _ (lt_of_le_of_lt (Nat.zero_le _) (hub k hk))
  have hmem : ∀ k, k ∈ tsorted n u ↔ ∃ q ∈ u, k = (q % n) * n + q / n := by
    intro k
    rw [tsorted, (gather_argsort_perm _).mem_iff, tkeys_eq, List.mem_map]
    constructor
    · rintro ⟨q, hq, rfl⟩; exact ⟨q, hq, rfl⟩
    · rintro ⟨q, hq, rfl⟩; exact ⟨q, hq, rfl⟩
  have htb : ∀ k ∈ tsorted n u, k / n < n := by
    intro k hk
    obtain ⟨q, hq, rfl⟩ := (hmem k).mp hk
    rw [key_div (hub q hq)]; exact hmod q hq
  have e1 : gather 0 (u.map (· / n)) (argsort (tkeys n u)) = (tsorted n u).map (· % n) :=
    gather_map_of_tkeys n u 0 _ _ (fun k hk => (key_mod (hub k hk)).symm)
  have e2 : gather 0 (u.map (· % n)) (argsort (tkeys n u)) = (tsorted n u).map (· / n) :=
    gather_map_of_tkeys n u 0 _ _ (fun k hk => (key_div (hub k hk)).symm)
  have e3 : gather 0 (u.map f) (argsort (tkeys n u))
      = (tsorted n u).map (fun k => f ((k % n) * n + k / n)) :=
    gather_map_of_tkeys n u 0 _ _ (fun k hk => by
      rw [key_div (hub k hk), key_mod (hub k hk), Nat.mul_comm, Nat.div_add_mod])
  unfold CSRMatrix.transposeWithMaps
  simp only [hf]
  rw [e1, e2, e3]
  have hts := tsorted_sorted n u hu hub
  refine ⟨⟨canonical_of_keys n _ hts htb, by simp⟩, ?_⟩
  intro i j hi hj
  rw [todense_of_keys n _ hts htb _ hi hj, todense_of_keys n u hu hub f hj hi]
  have hiff : i * n + j ∈ tsorted n u ↔ j * n + i ∈ u := by
    rw [hmem]
    constructor
    · rintro ⟨q, hq, e⟩
      obtain ⟨a, b⟩ := key_inj hj (hub q hq) e.symm
      have : j * n + i = q := by rw [← a, ← b, Nat.mul_comm]; exact Nat.div_add_mod q n
      rw [this]; exact hq
    · intro hq
      exact ⟨_, hq, by rw [key_div hi, key_mod hi]⟩
  simp only [hiff, key_div hj, key_mod hj]

/-- **C07** (shared structure): when the stored flag says the pattern is structurally symmetric, the
transpose uses literally the same pattern arrays. -/
theorem C07_symmetric_flag (p : Problem) (h : p.maps.structurallySymmetric = true) :
    p.maps.tIndices = p.maps.indices ∧ p.maps.tIndptr = p.maps.indptr := by
  have : p.maps.structurallySymmetric
      = ((p.maps.indices == p.maps.tIndices) && (p.maps.indptr == p.maps.tIndptr)) :=
    build_structSym _ _ _ _ _
  rw [this] at h
  simp only [Bool.and_eq_true, beq_iff_eq] at h
  exact ⟨h.1.symm, h.2.symm⟩

/-- **C07** (full view): with the full view the flag is always set, so the adjoint solve reuses the
forward pattern. -/
theorem C07_full_view_structurally_symmetric (p : Problem) (h : p.WF) (hv : p.view = .full) :
    p.maps.structurallySymmetric = true := by
  have hs : Shapes p (fun _ : Unit => (⟨List.replicate p.ndof 0, List.replicate (p.ndof * p.ndof) 0⟩
      : Local ℕ)) (fun _ (_ : Unit) => ⟨List.replicate p.ndof 0, List.replicate (p.ndof * p.ndof) 0⟩)
      (List.replicate p.numCells ()) (p.faceCells.map (fun l => l.map (fun _ => ()))) :=
    { cells := by simp
      faces := by
        rw [List.forall₂_map_left_iff]
        exact List.forall₂_same.mpr (fun _ _ => by simp)
      volJac := by simp
      volRes := by simp
      faceJac := by simp
      faceRes := by simp }
  have hub := h.u_div_lt
  have hu := p.u_sorted
  have hmod : ∀ k ∈ p.u, k % p.n < p.n := fun k hk =>
    Nat.mod_lt _ (lt_of_le_of_lt (Nat.zero_le _) (hub k hk))
  have hkeep : ∀ i j, p.view.keep i j = true := by intro i j; rw [hv]; rfl
  have hsw : ∀ i j, i < p.n → j < p.n → i * p.n + j ∈ p.u → j * p.n + i ∈ p.u := by
    intro i j hi hj hm
    have := ((h.key_mem_u hj).mp hm).2
    rw [mem_keysAll_iff_coupled p _ _ _ _ h hs hj] at this
    obtain ⟨e, he, a, b⟩ := this
    refine (h.key_mem_u hi).mpr ⟨hkeep _ _, ?_⟩
    rw [mem_keysAll_iff_coupled p _ _ _ _ h hs hi]
    exact ⟨e, he, b, a⟩
  have hts := tsorted_sorted p.n p.u hu hub
  have heq : tsorted p.n p.u = p.u := by
    apply List.Perm.eq_of_pairwise (le := (· < ·)) ?_ hts hu
    · rw [List.perm_ext_iff_of_nodup (nodup_of_sorted hts) (nodup_of_sorted hu)]
      intro k
      rw [tsorted, (gather_argsort_perm _).mem_iff, tkeys_eq, List.mem_map]
      constructor
      · rintro ⟨q, hq, rfl⟩
        apply hsw _ _ (hub q hq) (hmod q hq)
        have : q / p.n * p.n + q % p.n = q := by rw [Nat.mul_comm]; exact Nat.div_add_mod q p.n
        rw [this]; exact hq
      · intro hk
        have e : k / p.n * p.n + k % p.n = k := by rw [Nat.mul_comm]; exact Nat.div_add_mod k p.n
        refine ⟨(k % p.n) * p.n + k / p.n, hsw _ _ (hub k hk) (hmod k hk) (by rw [e]; exact hk), ?_⟩
        rw [key_div (hub k hk), key_mod (hub k hk), e]
    · intro a b _ _ h1 h2; exact absurd h2 (by omega)
  have e1 : p.maps.tIndices = p.maps.indices := by
    rw [Problem.maps_tIndices, p.maps_indices,
      gather_map_of_tkeys p.n p.u 0 _ (· % p.n) (fun k hk => (key_mod (hub k hk)).symm), heq]
  have e2 : p.maps.tIndptr = p.maps.indptr := by
    rw [Problem.maps_tIndptr, p.maps_indptr,
      gather_map_of_tkeys p.n p.u 0 _ (· / p.n) (fun k hk => (key_div (hub k hk)).symm), heq]
  have : p.maps.structurallySymmetric
      = ((p.maps.indices == p.maps.tIndices) && (p.maps.indptr == p.maps.tIndptr)) :=
    build_structSym _ _ _ _ _
  rw [this, e1, e2]
  simp

end C07

/-! ## Concrete cases meeting the hypotheses -/

example := C02_pattern_canonical exP2 exP2_wf
example := C02_stored_iff_coupled exP exKv exKf [2, 3] [[7]] exP_wf exP_shapes 0 2 (by decide)
  (by decide)
example : exP.maps.nse = 7 ∧ exP.maps.indptr = [0, 2, 5, 7] ∧
    exP.maps.indices = [0, 1, 0, 1, 2, 1, 2] := by decide
example := C02_entry_slot exP exP_wf 3 (by decide)
example := C05_view_is_triangle exP exKv exKf 0 0 [2, 3] [[7]] 1 exP_wf exP_shapes (by decide) 2 1
  (by decide) (by decide)

/-- `[[1, 2], [0, 3]]`. -/
def exU : CSRMatrix ℤ := ⟨[1, 2, 3], [0, 2, 3], [0, 1, 1], 2, 2⟩

theorem exU_wf : WellFormed exU := by
  refine ⟨⟨by decide, by decide, by decide, by decide, by decide, ?_⟩, by decide⟩
  intro r hr s t h1 h2 h3
  have hr' : r = 0 ∨ r = 1 := by simp only [exU] at hr; omega
  rcases hr' with rfl | rfl
  · have h4 : t < 2 := h3
    have : s = 0 ∧ t = 1 := by omega
    obtain ⟨rfl, rfl⟩ := this; decide
  · have h4 : 2 ≤ s := h1
    have h5 : t < 3 := h3
    omega

example := C06_todense exU exU_wf 0 1 (by decide) (by decide)
example := C06_matvec exU exU_wf [10, 100] 0 (by decide)
example : exU.matvec [10, 100] = [210, 300] ∧ exU.rmatvec [10, 100] = [10, 320] ∧
    exU.diagonal = [1, 3] := by decide
example := C06_rmatvec exU exU_wf [10, 100] 1 (by decide)
example := C06_diagonal exU exU_wf rfl 1 (by decide)
example := C06_transpose_view exU exU_wf

/-- The symmetric matrix `[[1, 2], [2, 3]]` stored as `exU`. -/
example : ∀ i j, i < 2 → j < 2 → exU.todense i j
    = if i ≤ j then (fun i j => ([[1, 2], [2, 3]] : List (List ℤ)).getD i [] |>.getD j 0) i j else 0 := by
  intro i j hi hj
  interval_cases i <;> interval_cases j <;> decide
example : exU.matvecWithTriangularView [10, 100] = [210, 320] := by decide

example := C07_transpose_maps (R := ℤ) exP exP_wf [1, 2, 3, 4, 5, 6, 7] (by decide)
example := C07_symmetric_flag exP (by decide)
example := C07_full_view_structurally_symmetric exP exP_wf rfl

end Verif.Props
