import Verif.Model.CudssBuckling
import Verif.Props.Buckling
import Verif.Props.Merge

/-!
# The GPU buckling backend from the matrices to the modes (C131)
-/

namespace Verif.Props
open Verif.Model Verif.Model.Buckling Matrix

/-! ## The reduced matrices -/

section
variable {R : Type*}

theorem flatMap_pick {α : Type*} (n i : ℕ) (hi : i < n) (f : ℕ → List α) (h : ∀ k < n, k ≠ i → f k = []) :
    (List.range n).flatMap f = f i := by
  induction n with
  | zero => omega
  | succ n ih =>
    rw [List.range_succ, List.flatMap_append, List.flatMap_singleton]
    rcases Nat.lt_succ_iff_lt_or_eq.1 hi with hi' | hi'
    · rw [ih hi' fun k hk => h k (by omega), h n (by omega) (by omega), List.append_nil]
    · subst hi'
      have : (List.range i).flatMap f = [] := by
        rw [List.flatMap_eq_nil_iff]
        intro k hk
        have := List.mem_range.1 hk
        exact h k (by omega) (by omega)
      rw [this, List.nil_append]

theorem redEntries_filter (M : CSRMatrix R) (free : List ℕ) {i j : ℕ} (hi : i < free.length) (hj : j < free.length) :
    (redEntries M free).filter (fun e => (e.1, e.2.1) == (i, j)) = (slotsAt M (free.getD i 0) (free.getD j 0)).map fun s => (i, j, s) := by
  unfold redEntries
  rw [List.filter_flatMap, flatMap_pick _ i hi, List.filter_flatMap, flatMap_pick _ j hj]
  · rw [List.filter_map, List.filter_eq_self.2]
    intro s _
    simp
  · intro k _ hk
    rw [List.filter_map, List.filter_eq_nil_iff.2, List.map_nil]
    intro s _
    simp [hk]
  · intro k _ hk
    rw [List.filter_eq_nil_iff]
    intro e he
    simp only [List.mem_flatMap, List.mem_map] at he
    obtain ⟨_, _, _, _, rfl⟩ := he
    simp [hk]

theorem redEntries_mem (M : CSRMatrix R) (free : List ℕ) (e : ℕ × ℕ × ℕ) :
    e ∈ redEntries M free ↔ e.1 < free.length ∧ e.2.1 < free.length ∧ e.2.2 < M.indices.length ∧
      M.rowOfSlot.getD e.2.2 0 = free.getD e.1 0 ∧ M.indices.getD e.2.2 0 = free.getD e.2.1 0 := by
  unfold redEntries slotsAt
  simp only [List.mem_flatMap, List.mem_map, List.mem_range, List.mem_filter, Bool.and_eq_true, beq_iff_eq]
  constructor
  · rintro ⟨i, hi, j, hj, s, ⟨hs, h1, h2⟩, rfl⟩
    exact ⟨hi, hj, hs, h1, h2⟩
  · rintro ⟨hi, hj, hs, h1, h2⟩
    exact ⟨e.1, hi, e.2.1, hj, e.2.2, ⟨hs, h1, h2⟩, rfl⟩

theorem redEntries_rows (M : CSRMatrix R) (free : List ℕ) : ((redEntries M free).map (·.1)).Pairwise (· ≤ ·) := by
  rw [List.pairwise_map]
  unfold redEntries
  rw [List.pairwise_flatMap]
  refine ⟨fun i _ => ?_, ?_⟩
  · rw [List.pairwise_flatMap]
    refine ⟨fun j _ => ?_, ?_⟩
    · rw [List.pairwise_map]
      exact List.pairwise_of_forall fun _ _ => le_rfl
    · refine List.Pairwise.imp ?_ (List.pairwise_lt_range (n := free.length))
      intro a b _ x hx y hy
      simp only [List.mem_map] at hx hy
      obtain ⟨_, _, rfl⟩ := hx
      obtain ⟨_, _, rfl⟩ := hy
      exact le_rfl
  · refine List.Pairwise.imp ?_ (List.pairwise_lt_range (n := free.length))
    intro a b hab x hx y hy
    simp only [List.mem_flatMap, List.mem_map] at hx hy
    obtain ⟨_, _, _, _, rfl⟩ := hx
    obtain ⟨_, _, _, _, rfl⟩ := hy
    exact hab.le

/-- Dense entries of the reduced matrix with a value for each entry. -/
theorem redMatrix_dense [AddCommMonoid R] (M : CSRMatrix R) (free : List ℕ) (g : ℕ × ℕ × ℕ → R) {i j : ℕ} (hi : i < free.length) (hj : j < free.length) :
    (redMatrix M free ((redEntries M free).map g)).todense i j =
      ((slotsAt M (free.getD i 0) (free.getD j 0)).map fun s => g (i, j, s)).sum := by
  unfold CSRMatrix.todense redMatrix CSRMatrix.rowOfSlot
  simp only
  rw [if_pos ⟨hi, hj⟩, repeatByPtr_ptrOfRows _ _ (redEntries_rows M free)]
  · rw [List.zip_map', List.zip_map', List.filter_map, List.map_map]
    have : ((fun p : (ℕ × ℕ) × R => p.1 == (i, j)) ∘ fun e : ℕ × ℕ × ℕ => ((e.1, e.2.1), g e)) =
        fun e => (e.1, e.2.1) == (i, j) := rfl
    rw [this, redEntries_filter M free hi hj, List.map_map]
    rfl
  · intro r hr
    simp only [List.mem_map] at hr
    obtain ⟨e, he, rfl⟩ := hr
    exact ((redEntries_mem M free e).1 he).1

theorem slots_todense {M : CSRMatrix ℝ} (h : CSRWF M) {r c : ℕ} (hr : r < M.numRows) (hc : c < M.numCols) :
    ((slotsAt M r c).map fun s => M.data.getD s 0).sum = M.todense r c := by
  rw [todense_eq_sum h hr hc, slotsAt, ← sum_range_list]
  generalize List.range M.indices.length = l
  induction l with
  | nil => rfl
  | cons x xs ih =>
    rw [List.map_cons, List.sum_cons, ← ih, List.filter_cons]
    by_cases hx : M.rowOfSlot.getD x 0 = r ∧ M.indices.getD x 0 = c
    · rw [if_pos hx, if_pos (by simpa using hx), List.map_cons, List.sum_cons]
    · rw [if_neg hx, if_neg (by simpa using hx), zero_add]

end

theorem gather_slots (M : CSRMatrix ℝ) (free : List ℕ) :
    gather 0 M.data (redSlots M free) = (redEntries M free).map fun e => M.data.getD e.2.2 0 := by
  unfold gather redSlots
  rw [List.map_map]
  rfl

/-- **C131, restriction.** The geometric stiffness the GPU solver works with is that of the free DOFs, whatever the pattern. -/
theorem C131_restrict {M : CSRMatrix ℝ} (h : CSRWF M) {free : List ℕ} (hr : ∀ r ∈ free, r < M.numRows) (hc : ∀ r ∈ free, r < M.numCols) :
    dense free.length (redKg M free) = restrict M free := by
  funext i j
  unfold dense redKg restrict
  rw [gather_slots, redMatrix_dense M free _ i.2 j.2]
  have h1 : free.getD i 0 = free[i] := List.getD_eq_getElem _ _ i.2
  have h2 : free.getD j 0 = free[j] := List.getD_eq_getElem _ _ j.2
  rw [h1, h2]
  exact slots_todense h (hr _ (List.getElem_mem _)) (hc _ (List.getElem_mem _))

/-- A stored pattern with every position at most once, and on the free DOFs with each position also its mirror image. -/
structure MirrorPattern {R : Type*} (M : CSRMatrix R) (free : List ℕ) : Prop where
  once : ∀ s < M.indices.length, ∀ t < M.indices.length, M.rowOfSlot.getD s 0 = M.rowOfSlot.getD t 0 →
    M.indices.getD s 0 = M.indices.getD t 0 → s = t
  mirror : ∀ r ∈ free, ∀ c ∈ free, (∃ s < M.indices.length, M.rowOfSlot.getD s 0 = r ∧ M.indices.getD s 0 = c) →
    ∃ s < M.indices.length, M.rowOfSlot.getD s 0 = c ∧ M.indices.getD s 0 = r

section
variable {R : Type*}

theorem slotsAt_once {M : CSRMatrix R} {free : List ℕ} (h : MirrorPattern M free) {s : ℕ} (hs : s < M.indices.length) :
    slotsAt M (M.rowOfSlot.getD s 0) (M.indices.getD s 0) = [s] := by
  unfold slotsAt
  have hn : ((List.range M.indices.length).filter fun t => M.rowOfSlot.getD t 0 == M.rowOfSlot.getD s 0 && M.indices.getD t 0 == M.indices.getD s 0).Nodup :=
    List.nodup_range.sublist List.filter_sublist
  refine List.perm_singleton.1 ((List.perm_ext_iff_of_nodup hn (List.nodup_singleton _)).2 fun t => ?_)
  simp only [List.mem_filter, List.mem_range, Bool.and_eq_true, beq_iff_eq, List.mem_singleton]
  constructor
  · rintro ⟨ht, h1, h2⟩
    exact h.once t ht s hs h1 h2
  · rintro rfl
    exact ⟨hs, rfl, rfl⟩

/-- The keys of the entries. -/
def redKeys (M : CSRMatrix R) (free : List ℕ) : List ℕ := (redEntries M free).map fun e => e.1 * free.length + e.2.1

theorem redKeys_sorted {M : CSRMatrix R} {free : List ℕ} (h : MirrorPattern M free) : (redKeys M free).Pairwise (· < ·) := by
  unfold redKeys
  rw [List.pairwise_map]
  unfold redEntries
  have hlen : ∀ r c, ∀ s ∈ slotsAt M r c, ∀ t ∈ slotsAt M r c, s = t := by
    intro r c s hs t ht
    simp only [slotsAt, List.mem_filter, List.mem_range, Bool.and_eq_true, beq_iff_eq] at hs ht
    exact h.once s hs.1 t ht.1 (hs.2.1.trans ht.2.1.symm) (hs.2.2.trans ht.2.2.symm)
  rw [List.pairwise_flatMap]
  refine ⟨fun i hi => ?_, ?_⟩
  · rw [List.pairwise_flatMap]
    refine ⟨fun j hj => ?_, ?_⟩
    · rw [List.pairwise_map]
      have hn : (slotsAt M (free.getD i 0) (free.getD j 0)).Nodup := List.nodup_range.sublist List.filter_sublist
      exact List.Pairwise.imp_of_mem (fun {a b} ha hb hab => absurd (hlen _ _ a ha b hb) hab) hn
    · refine List.Pairwise.imp ?_ (List.pairwise_lt_range (n := free.length))
      intro a b hab x hx y hy
      simp only [List.mem_map] at hx hy
      obtain ⟨_, _, rfl⟩ := hx
      obtain ⟨_, _, rfl⟩ := hy
      simp only
      omega
  · refine List.Pairwise.imp ?_ (List.pairwise_lt_range (n := free.length))
    intro a b hab x hx y hy
    simp only [List.mem_flatMap, List.mem_map, List.mem_range] at hx hy
    obtain ⟨j, hj, _, _, rfl⟩ := hx
    obtain ⟨j', _, _, _, rfl⟩ := hy
    simp only
    have : (a + 1) * free.length ≤ b * free.length := Nat.mul_le_mul_right _ hab
    rw [Nat.succ_mul] at this
    omega

theorem redKeys_spec (M : CSRMatrix R) (free : List ℕ) : ∀ e ∈ redEntries M free,
    (e.1 * free.length + e.2.1) / free.length = e.1 ∧ (e.1 * free.length + e.2.1) % free.length = e.2.1 := by
  intro e he
  obtain ⟨h1, h2, -⟩ := (redEntries_mem M free e).1 he
  exact ⟨key_div h2, key_mod h2⟩

end

/-- **C131, symmetrisation.** On a structurally symmetric pattern the stiffness the GPU solver factorises is the symmetric part of that of
the free DOFs. -/
theorem C131_symmetrise {M : CSRMatrix ℝ} (h : CSRWF M) {free : List ℕ} (hp : MirrorPattern M free) (hr : ∀ r ∈ free, r < M.numRows)
    (hc : ∀ r ∈ free, r < M.numCols) :
    dense free.length (redK M free) = (1 / 2 : ℝ) • (restrict M free + (restrict M free)ᵀ) := by
  set n := free.length with hn
  set u := redKeys M free with hu
  set f : ℕ → ℝ := fun k => M.todense (free.getD (k / n) 0) (free.getD (k % n) 0) with hf
  have hus := redKeys_sorted hp
  have hmap : ∀ (γ : Type) (F : ℕ → γ), u.map F = (redEntries M free).map fun e => F (e.1 * n + e.2.1) := by
    intro γ F; rw [hu, redKeys, List.map_map]; rfl
  have hmem : ∀ r ∈ free, ∀ c ∈ free, M.todense r c = ((slotsAt M r c).map fun s => M.data.getD s 0).sum :=
    fun r h1 c h2 => (slots_todense h (hr r h1) (hc c h2)).symm
  have hfree : ∀ i < n, free.getD i 0 ∈ free := fun i hi => by
    rw [List.getD_eq_getElem _ _ hi]; exact List.getElem_mem _
  have hval : ∀ e ∈ redEntries M free, M.data.getD e.2.2 0 = f (e.1 * n + e.2.1) := by
    intro e he
    obtain ⟨h1, h2, h3, h4, h5⟩ := (redEntries_mem M free e).1 he
    obtain ⟨k1, k2⟩ := redKeys_spec M free e he
    simp only [hf, hn, k1, k2]
    rw [hmem _ (hfree _ h1) _ (hfree _ h2), ← h4, ← h5, slotsAt_once hp h3]
    simp
  have hkf : gather 0 M.data (redSlots M free) = u.map f := by
    rw [gather_slots, hmap]
    exact List.map_congr_left hval
  -- the transposed order is the same list of keys
  have htk : coordKeys n ((redEntries M free).map (·.2.1)) ((redEntries M free).map (·.1)) = tkeys n u := by
    rw [tkeys_eq, hmap]
    unfold coordKeys
    rw [List.zipWith_map_left, List.zipWith_map_right, List.zipWith_self]
    refine List.map_congr_left fun e he => ?_
    obtain ⟨k1, k2⟩ := redKeys_spec M free e he
    rw [hn, k1, k2]
  have hdiv : ∀ k ∈ u, k / n < n ∧ k % n < n := by
    intro k hk
    rw [hu, redKeys, List.mem_map] at hk
    obtain ⟨e, he, rfl⟩ := hk
    obtain ⟨k1, k2⟩ := redKeys_spec M free e he
    obtain ⟨h1, h2, -⟩ := (redEntries_mem M free e).1 he
    exact ⟨by rw [hn, k1]; exact h1, by rw [hn, k2]; exact h2⟩
  have humem : ∀ i < n, ∀ j < n, i * n + j ∈ u ↔ ∃ s < M.indices.length, M.rowOfSlot.getD s 0 = free.getD i 0 ∧ M.indices.getD s 0 = free.getD j 0 := by
    intro i hi j hj
    rw [hu, redKeys, List.mem_map]
    constructor
    · rintro ⟨e, he, hk⟩
      obtain ⟨h1, h2, h3, h4, h5⟩ := (redEntries_mem M free e).1 he
      obtain ⟨a, b⟩ := key_inj hj h2 hk
      exact ⟨e.2.2, h3, by rw [h4, a], by rw [h5, b]⟩
    · rintro ⟨s, hs, h4, h5⟩
      exact ⟨(i, j, s), (redEntries_mem M free _).2 ⟨hi, hj, hs, h4, h5⟩, rfl⟩
  have hts : tsorted n u = u := by
    refine sorted_ext (tsorted_sorted n u hus fun k hk => (hdiv k hk).1) hus fun k => ?_
    rw [tsorted, (gather_argsort_perm _).mem_iff, tkeys_eq, List.mem_map]
    constructor
    · rintro ⟨q, hq, rfl⟩
      obtain ⟨q1, q2⟩ := hdiv q hq
      rw [humem _ q2 _ q1]
      refine hp.mirror _ (hfree _ q1) _ (hfree _ q2) ((humem _ q1 _ q2).1 ?_)
      rwa [Nat.div_add_mod']
    · intro hk
      obtain ⟨q1, q2⟩ := hdiv k hk
      refine ⟨k % n * n + k / n, ?_, ?_⟩
      · rw [humem _ q2 _ q1]
        refine hp.mirror _ (hfree _ q1) _ (hfree _ q2) ((humem _ q1 _ q2).1 ?_)
        rwa [Nat.div_add_mod']
      · rw [key_div q1, key_mod q1, Nat.div_add_mod']
  have hT : gather 0 (u.map f) (redTperm M free) = u.map fun k => f (k % n * n + k / n) := by
    rw [redTperm, ← hn, htk, gather_map_of_tkeys n u 0 f (fun k => f (k % n * n + k / n)), hts]
    intro k hk
    obtain ⟨q1, q2⟩ := hdiv k hk
    rw [key_div q1, key_mod q1, Nat.div_add_mod']
  have hdata : redK M free = redMatrix M free ((redEntries M free).map fun e =>
      (1 / 2 : ℝ) * (f (e.1 * n + e.2.1) + f (e.2.1 * n + e.1))) := by
    unfold redK
    simp only
    rw [hkf, hT, List.zipWith_map_left, List.zipWith_map_right, List.zipWith_self, hmap]
    congr 1
    refine List.map_congr_left fun e he => ?_
    obtain ⟨k1, k2⟩ := redKeys_spec M free e he
    rw [hn, k1, k2]
  funext i j
  show (redK M free).todense i j = _
  rw [hdata, redMatrix_dense M free _ i.2 j.2]
  have hi : free.getD i 0 = free[i] := List.getD_eq_getElem _ _ i.2
  have hj : free.getD j 0 = free[j] := List.getD_eq_getElem _ _ j.2
  have hfij : f ((i : ℕ) * n + j) = restrict M free i j := by
    simp only [hf, restrict]; rw [key_div j.2, key_mod j.2, hi, hj]
  have hfji : f ((j : ℕ) * n + i) = restrict M free j i := by
    simp only [hf, restrict]; rw [key_div i.2, key_mod i.2, hi, hj]
  simp only [Matrix.smul_apply, Matrix.add_apply, Matrix.transpose_apply, smul_eq_mul, ← hfij, ← hfji]
  by_cases hst : ∃ s < M.indices.length, M.rowOfSlot.getD s 0 = free.getD i 0 ∧ M.indices.getD s 0 = free.getD j 0
  · obtain ⟨s, hs, h4, h5⟩ := hst
    rw [← h4, ← h5, slotsAt_once hp hs]
    simp
  · have e1 : slotsAt M (free.getD i 0) (free.getD j 0) = [] := by
      rw [slotsAt, List.filter_eq_nil_iff]
      intro s hs
      simp only [Bool.and_eq_true, beq_iff_eq]
      exact fun hh => hst ⟨s, List.mem_range.1 hs, hh⟩
    have e2 : slotsAt M (free.getD j 0) (free.getD i 0) = [] := by
      rw [slotsAt, List.filter_eq_nil_iff]
      intro s hs
      simp only [Bool.and_eq_true, beq_iff_eq]
      exact fun hh => hst (hp.mirror _ (hfree _ j.2) _ (hfree _ i.2) ⟨s, List.mem_range.1 hs, hh⟩)
    rw [e1, hfij, hfji]
    have r1 : restrict M free i j = 0 := by
      show M.todense free[i] free[j] = 0
      rw [← hi, ← hj, hmem _ (hfree _ i.2) _ (hfree _ j.2), e1]; rfl
    have r2 : restrict M free j i = 0 := by
      show M.todense free[j] free[i] = 0
      rw [← hi, ← hj, hmem _ (hfree _ j.2) _ (hfree _ i.2), e2]; rfl
    rw [r1, r2]; simp

/-! ## The solver -/

/-- The buckling problem as the GPU solver wants it: `BucklingOk`, with stored matrices of the right shape and a structurally symmetric
stiffness pattern. -/
structure GpuProblem (K Kg : CSRMatrix ℝ) (free : List ℕ) : Prop where
  ok : BucklingOk K Kg free
  wfK : CSRWF K
  wfG : CSRWF Kg
  pattern : MirrorPattern K free
  colsK : ∀ i ∈ free, i < K.numCols
  rowsG : ∀ i ∈ free, i < Kg.numRows
  colsG : ∀ i ∈ free, i < Kg.numCols

/-- What is assumed of `numpy.argsort`. -/
def ArgsortOk (ops : CudssOps) : Prop := ∀ {n : ℕ} (key : Fin n → WithTop ℝ), (ops.argsort key).Perm (List.finRange n) ∧
  (ops.argsort key).Pairwise fun i j => key i ≤ key j

/-- What is assumed of `numpy.linalg.eig` on the matrix it is given: every triple (real part, imaginary part, real part of the vector)
belongs to an eigenpair over the complex numbers, a real one when the imaginary part of the value is zero; the real eigenvalues are all
there, as often as they are roots of the characteristic polynomial. -/
structure NumpyEig {m : ℕ} (H : Matrix (Fin m) (Fin m) ℝ) (l : List (ℝ × ℝ × (Fin m → ℝ))) : Prop where
  pair : ∀ e ∈ l, ∃ z, (e.2.2 ≠ 0 ∨ z ≠ 0) ∧ (e.2.1 = 0 → z = 0) ∧ H *ᵥ e.2.2 = e.1 • e.2.2 - e.2.1 • z ∧
    H *ᵥ z = e.1 • z + e.2.1 • e.2.2
  all : ∀ μ y, y ≠ 0 → H *ᵥ y = μ • y → ∃ e ∈ l, e.1 = μ ∧ e.2.1 = 0
  mult : ∀ μ : ℝ, (open Classical in l.countP fun e => decide (e.1 = μ ∧ e.2.1 = 0)) = H.charpoly.rootMultiplicity μ

/-- The operator `-K⁻¹ K_g` on the free DOFs. -/
noncomputable def gpuT (K Kg : CSRMatrix ℝ) (free : List ℕ) : Matrix (Fin free.length) (Fin free.length) ℝ :=
  shiftInvert (restrict K free) (restrict Kg free)

/-- The Hessenberg matrix handed to `numpy.linalg.eig`. -/
noncomputable def gpuH (K Kg : CSRMatrix ℝ) (free : List ℕ) (v0 : Fin free.length → ℝ) (m : ℕ) : Matrix (Fin m) (Fin m) ℝ :=
  hessMatrix m (arnoldi (gpuT K Kg free *ᵥ ·) v0 m).2

theorem tApply_eq {ops : CudssOps} {K Kg : CSRMatrix ℝ} {free : List ℕ} (hp : GpuProblem K Kg free)
    (hs : ∀ b, restrict K free *ᵥ ops.solve (restrict K free) b = b) :
    dense free.length (redK K free) = restrict K free ∧
    tApply ops (dense free.length (redK K free)) (dense free.length (redKg Kg free)) = (gpuT K Kg free *ᵥ ·) := by
  have h1 : dense free.length (redK K free) = restrict K free := by
    rw [C131_symmetrise hp.wfK hp.pattern hp.ok.range hp.colsK, half_sym hp.ok.spd.1]
  refine ⟨h1, ?_⟩
  funext v
  rw [h1, C131_restrict hp.wfG hp.rowsG hp.colsG, tApply, gpuT, shiftInvert, half_sym hp.ok.spd.1, neg_mulVec, ← mulVec_mulVec]
  congr 1
  have := hs (restrict Kg free *ᵥ v)
  conv_rhs => rw [← this]
  rw [mulVec_mulVec, nonsing_inv_mul _ (spd_isUnit hp.ok.spd), one_mulVec]

theorem ritzValid_iff {V : Type*} (e : ℝ × ℝ × V) : ritzValid e = true ↔
    |e.2.1| ≤ 1 / 10 ^ 8 * (|e.1| + 1 / 10 ^ 30) ∧ e.1 ≠ 0 ∧ sparseTol < 1 / e.1 := by simp [ritzValid]

theorem ritzValid_of_real {V : Type*} {e : ℝ × ℝ × V} (h0 : e.2.1 = 0) (h : 0 < e.1) (ht : sparseTol < 1 / e.1) : ritzValid e = true := by
  rw [ritzValid_iff]
  refine ⟨?_, h.ne', ht⟩
  rw [h0, abs_zero]
  positivity

theorem ritzOrder_spec {V : Type*} {ops : CudssOps} (ha : ArgsortOk ops) (mo : ℕ) (l : List (ℝ × ℝ × V)) :
    (∀ i ∈ ritzOrder ops mo l, ritzValid (l.get i) = true) ∧
    (ritzOrder ops mo l).Pairwise (fun i j => 1 / (l.get i).1 ≤ 1 / (l.get j).1) ∧ (ritzOrder ops mo l).Nodup ∧
    (ritzOrder ops mo l).length ≤ mo ∧
    ∀ i, ritzValid (l.get i) = true → i ∉ ritzOrder ops mo l →
      (ritzOrder ops mo l).length = mo ∧ ∀ j ∈ ritzOrder ops mo l, 1 / (l.get j).1 ≤ 1 / (l.get i).1 := by
  set key : Fin l.length → WithTop ℝ := fun i => if ritzValid (l.get i) then ((1 / (l.get i).1 : ℝ) : WithTop ℝ) else ⊤ with hkey
  obtain ⟨hperm, hsort⟩ := ha key
  obtain ⟨p1, p2, p3, p4, p5⟩ := pick_spec (valid := fun i => ritzValid (l.get i))
    (fun i => hperm.mem_iff.2 (List.mem_finRange i)) (hperm.nodup_iff.2 (List.nodup_finRange _)) hsort mo
  have ho : ritzOrder ops mo l = ((ops.argsort key).filter (fun i => ritzValid (l.get i))).take mo := rfl
  have hk : ∀ i j, ritzValid (l.get i) = true → ritzValid (l.get j) = true → key i ≤ key j → 1 / (l.get i).1 ≤ 1 / (l.get j).1 := by
    intro i j hi hj h
    simp only [hkey, hi, hj, if_true] at h
    exact WithTop.coe_le_coe.1 h
  rw [ho]
  refine ⟨p1, p2.imp_of_mem (fun {a b} ha hb h => hk a b (p1 a ha) (p1 b hb) h), p3, by rw [p4]; exact min_le_left _ _, ?_⟩
  intro i hi hni
  obtain ⟨q1, q2⟩ := p5 i hi hni
  exact ⟨q1, fun j hj => hk j i (p1 j hj) hi (q2 j hj)⟩

theorem cudssResidual_eq {n : ℕ} (T : Matrix (Fin n) (Fin n) ℝ) (mu : ℝ) (phi : Fin n → ℝ) :
    cudssResidual (T *ᵥ ·) mu phi = vnorm (T *ᵥ phi - mu • phi) / (vnorm phi + 1 / 10 ^ 30) := by
  have hpos : 0 < vnorm phi + 1 / 10 ^ 30 := by have := vnorm_nonneg phi; positivity
  unfold cudssResidual
  simp only
  rw [mulVec_smul, smul_comm mu, ← smul_sub, vnorm_smul, abs_of_pos (by positivity), one_div_mul_eq_div]

theorem ritzScale_spec {n : ℕ} {Kf : Matrix (Fin n) (Fin n) ℝ} (hK : Spd Kf) (x : Fin n → ℝ) :
    (x = 0 → ritzScale Kf x = 0) ∧ (x ≠ 0 → ∃ c : ℝ, 0 < c ∧ ritzScale Kf x = c • x ∧
      ∃ e : ℝ, 0 < e ∧ ritzScale Kf x ⬝ᵥ (Kf *ᵥ ritzScale Kf x) = e / (e + 1 / 10 ^ 300)) := by
  refine ⟨fun h => by rw [h, ritzScale, smul_zero], fun h => ?_⟩
  have he : 0 < vdot x (Kf *ᵥ x) := hK.2 x h
  have hd : vdot x (Kf *ᵥ x) = x ⬝ᵥ (Kf *ᵥ x) := rfl
  set e := vdot x (Kf *ᵥ x) with hee
  have hs : ritzScale Kf x = (1 / Real.sqrt (e + 1 / 10 ^ 300)) • x := by
    rw [ritzScale, if_pos he, abs_of_pos he]
  have hp : 0 < e + 1 / 10 ^ 300 := by positivity
  refine ⟨1 / Real.sqrt (e + 1 / 10 ^ 300), by positivity, hs, e, he, ?_⟩
  rw [hs, mulVec_smul, smul_dotProduct, dotProduct_smul, ← hd, smul_eq_mul, smul_eq_mul]
  have h2 := Real.mul_self_sqrt hp.le
  have h3 : Real.sqrt (e + 1 / 10 ^ 300) ≠ 0 := (Real.sqrt_pos.2 hp).ne'
  rw [← mul_assoc, one_div_mul_one_div, h2, one_div_mul_eq_div]

/-- What a run from the operator on amounts to. -/
theorem cudssRun_spec (ops : CudssOps) (m mo : ℕ) (convTol : Option ℝ) (N : ℕ) (free : List ℕ) (v0 : Fin free.length → ℝ)
    (Kf T : Matrix (Fin free.length) (Fin free.length) ℝ) :
    let V := (arnoldi (T *ᵥ ·) v0 m).1
    let l := ops.eig (hessMatrix m (arnoldi (T *ᵥ ·) v0 m).2)
    let order := ritzOrder ops mo l
    let phi := fun c => ritzScale Kf (ritzRow V m (ritzCoeff (l.get c).2.2))
    ∀ r, cudssRun ops m mo convTol N free v0 Kf (T *ᵥ ·) = .ok r ↔
      r = (order.map fun c => Mode.mk (.fin (1 / (l.get c).1)) (scatterMode N free (phi c)) (List.ofFn (phi c))) ++
        List.replicate (mo - order.length) (Mode.mk .pinf (List.replicate N 0) (List.replicate free.length 0)) ∧
      ∀ t, convTol = some t → ∃ c rest, order = c :: rest ∧
        vnorm (T *ᵥ phi c - (l.get c).1 • phi c) ≤ t * (vnorm (phi c) + 1 / 10 ^ 30) := by
  intro V l order phi r
  have hrun : cudssRun ops m mo convTol N free v0 Kf (T *ᵥ ·) = match convTol with
      | none => .ok ((order.map fun c => Mode.mk (.fin (1 / (l.get c).1)) (scatterMode N free (phi c)) (List.ofFn (phi c))) ++
        List.replicate (mo - order.length) (Mode.mk .pinf (List.replicate N 0) (List.replicate free.length 0)))
      | some tol => match order with
        | [] => .error .runtimeError
        | c :: _ => open Classical in
          if tol < cudssResidual (T *ᵥ ·) (l.get c).1 (phi c) then .error .runtimeError else
            .ok ((order.map fun c => Mode.mk (.fin (1 / (l.get c).1)) (scatterMode N free (phi c)) (List.ofFn (phi c))) ++
              List.replicate (mo - order.length) (Mode.mk .pinf (List.replicate N 0) (List.replicate free.length 0))) := by
    unfold cudssRun
    simp only [List.length_map]
    rfl
  rw [hrun]
  cases convTol with
  | none => exact ⟨fun h => ⟨(Except.ok.inj h).symm, by simp⟩, fun h => by rw [h.1]⟩
  | some tol =>
    simp only
    cases ho : order with
    | nil =>
      refine ⟨fun h => by simp at h, fun h => ?_⟩
      obtain ⟨c, rest, hcr, -⟩ := h.2 tol rfl
      simp at hcr
    | cons c rest =>
      have hpos : 0 < vnorm (phi c) + 1 / 10 ^ 30 := by have := vnorm_nonneg (phi c); positivity
      have hiff : ¬ tol < cudssResidual (T *ᵥ ·) (l.get c).1 (phi c) ↔
          vnorm (T *ᵥ phi c - (l.get c).1 • phi c) ≤ tol * (vnorm (phi c) + 1 / 10 ^ 30) := by
        rw [cudssResidual_eq, not_lt, div_le_iff₀ hpos]
      simp only
      split_ifs with hr
      · refine ⟨fun h => by simp at h, fun h => ?_⟩
        obtain ⟨c', rest', hcr, hle⟩ := h.2 tol rfl
        obtain ⟨rfl, rfl⟩ := List.cons.inj hcr
        exact absurd hr (hiff.2 hle)
      · refine ⟨fun h => ⟨(Except.ok.inj h).symm, fun t ht => ?_⟩, fun h => by rw [h.1]⟩
        obtain rfl := Option.some.inj ht
        exact ⟨c, rest, rfl, hiff.1 hr⟩

/-- Combination of the first `m` rows. -/
noncomputable def rowComb {n : ℕ} (V : List (Fin n → ℝ)) {m : ℕ} (y : Fin m → ℝ) : Fin n → ℝ := ∑ j : Fin m, y j • rowV V j

theorem ritzRow_eq {n : ℕ} (V : List (Fin n → ℝ)) {m : ℕ} (y : Fin m → ℝ) :
    ritzRow V m (ritzCoeff y) = (1 / (vnorm y + 1 / 10 ^ 30)) • rowComb V y := by
  unfold ritzRow rowComb
  rw [Finset.sum_range, Finset.smul_sum]
  refine Finset.sum_congr rfl fun j _ => ?_
  rw [ritzCoeff, dif_pos j.2, smul_smul, rowV]
  congr 1
  rw [one_div_mul_eq_div]

theorem ritzRow_vector {n : ℕ} (V : List (Fin n → ℝ)) {m : ℕ} (y : Fin m → ℝ) :
    ritzRow V m (ritzCoeff y) = ritzVector V m (ritzCoeff y) := rfl

/-- **C131, what is returned.** Whenever the solver returns, for any number of modes and steps: `num_modes` rows; first the factors found,
ascending, each above `1e-12`, the mode zero on the constrained DOFs and either zero or of stiffness energy one (up to the guard `1e-300`
in the scaling); then infinite factors with zero modes. With a tolerance there is at least one factor, and the first pair has a residual
within the tolerance. A mode that comes from a real eigenvalue of the Hessenberg matrix is not zero, and its residual is within the
bound given by the last coefficient. -/
theorem C131_returned {ops : CudssOps} (ha : ArgsortOk ops) {K Kg : CSRMatrix ℝ} {free : List ℕ} (hp : GpuProblem K Kg free)
    (hs : ∀ b, restrict K free *ᵥ ops.solve (restrict K free) b = b) {nm mo : ℕ} {convTol : Option ℝ} {v0 : Fin free.length → ℝ}
    (hv0 : v0 ≠ 0) (he : NumpyEig (gpuH K Kg free v0 (cudssSteps free.length mo nm)) (ops.eig (gpuH K Kg free v0 (cudssSteps free.length mo nm))))
    {out : List Mode} (hout : cudssForward ops nm mo convTol free v0 K Kg = .ok out) :
    ∃ lams : List ℝ, lams.length ≤ mo ∧ out.length = mo ∧ lams.Pairwise (· ≤ ·) ∧
    (∀ i (hi : i < lams.length), ∃ md, out[i]? = some md ∧ md.lam = .fin lams[i] ∧ sparseTol < lams[i] ∧
      md.full.length = K.numRows ∧ (∀ d, d ∉ free → md.full.getD d 0 = 0) ∧ md.phi = List.ofFn (onFree free md.full) ∧
      (onFree free md.full = 0 ∨ ∃ e > 0, kProd K free (onFree free md.full) (onFree free md.full) = e / (e + 1 / 10 ^ 300)) ∧
      ∃ e ∈ ops.eig (gpuH K Kg free v0 (cudssSteps free.length mo nm)), lams[i] = 1 / e.1 ∧ (e.2.1 = 0 →
        onFree free md.full ≠ 0 ∧ ∃ c : ℝ, ∃ x, 0 < c ∧ onFree free md.full = c • x ∧
          vnorm (gpuT K Kg free *ᵥ x - e.1 • x) ≤
            |hess (arnoldi (gpuT K Kg free *ᵥ ·) v0 (cudssSteps free.length mo nm)).2 (cudssSteps free.length mo nm)
              (cudssSteps free.length mo nm - 1) * ritzCoeff e.2.2 (cudssSteps free.length mo nm - 1)| +
            (∑ j ∈ Finset.range (cudssSteps free.length mo nm), |ritzCoeff e.2.2 j|) / 10 ^ 30)) ∧
    (∀ i, lams.length ≤ i → i < mo → out[i]? = some ⟨.pinf, List.replicate K.numRows 0, List.replicate free.length 0⟩) ∧
    ∀ t, convTol = some t → ∃ lam md, lams.head? = some lam ∧ out.head? = some md ∧
      vnorm (gpuT K Kg free *ᵥ onFree free md.full - (1 / lam) • onFree free md.full) ≤ t * (vnorm (onFree free md.full) + 1 / 10 ^ 30) := by
  obtain ⟨h1, h2⟩ := tApply_eq hp hs
  set m := cudssSteps free.length mo nm with hm
  have hm2 : 2 ≤ m := by
    by_contra h
    unfold cudssForward at hout
    simp only at hout
    rw [if_pos (by omega)] at hout
    simp at hout
  have hrun : cudssRun ops m mo convTol K.numRows free v0 (restrict K free) (gpuT K Kg free *ᵥ ·) = .ok out := by
    unfold cudssForward at hout
    simp only at hout
    rw [if_neg (by omega), h2, h1] at hout
    exact hout
  have hspec := (cudssRun_spec ops m mo convTol K.numRows free v0 (restrict K free) (gpuT K Kg free) out).1 hrun
  change _ ∧ _ at hspec
  set V := (arnoldi (gpuT K Kg free *ᵥ ·) v0 m).1 with hV
  set l := ops.eig (gpuH K Kg free v0 m) with hl
  set order := ritzOrder ops mo l with horder
  set phi : Fin l.length → Fin free.length → ℝ := fun c => ritzScale (restrict K free) (ritzRow V m (ritzCoeff (l.get c).2.2)) with hphi
  obtain ⟨ho, hconv⟩ := hspec
  change out = (order.map fun c => Mode.mk (.fin (1 / (l.get c).1)) (scatterMode K.numRows free (phi c)) (List.ofFn (phi c))) ++
        List.replicate (mo - order.length) (Mode.mk .pinf (List.replicate K.numRows 0) (List.replicate free.length 0)) at ho
  change ∀ t, convTol = some t → ∃ c rest, order = c :: rest ∧
        vnorm (gpuT K Kg free *ᵥ phi c - (l.get c).1 • phi c) ≤ t * (vnorm (phi c) + 1 / 10 ^ 30) at hconv
  obtain ⟨q1, q2, q3, q4, -⟩ := ritzOrder_spec ha mo l
  rw [← horder] at q4
  have hfull : ∀ x, onFree free (scatterMode K.numRows free x) = x := fun x => onFree_scatter hp.ok.nodup hp.ok.range x
  refine ⟨order.map fun c => 1 / (l.get c).1, by simpa using q4, ?_, by rw [List.pairwise_map]; exact q2, ?_, ?_, ?_⟩
  · rw [ho]; simp; omega
  · intro i hi
    have hi' : i < order.length := by simpa using hi
    set c := order[i] with hc
    have hcm : c ∈ order := List.getElem_mem _
    refine ⟨Mode.mk (.fin (1 / (l.get c).1)) (scatterMode K.numRows free (phi c)) (List.ofFn (phi c)), ?_, ?_, ?_, ?_, ?_, ?_, ?_, ?_⟩
    · rw [ho, List.getElem?_append_left (by simpa using hi'), List.getElem?_map, List.getElem?_eq_getElem hi']
      rfl
    · simp [hc]
    · have := ((ritzValid_iff _).1 (q1 c hcm)).2.2
      simpa [hc] using this
    · exact scatter_length _ _ _
    · intro d hd
      exact scatter_off _ _ _ _ hd
    · rw [hfull]
    · simp only [hfull]
      by_cases hx : ritzRow V m (ritzCoeff (l.get c).2.2) = 0
      · exact .inl ((ritzScale_spec hp.ok.spd _).1 hx)
      · obtain ⟨_, _, _, e, h3, h4⟩ := (ritzScale_spec hp.ok.spd _).2 hx
        exact .inr ⟨e, h3, by rw [kProd_eq]; exact h4⟩
    · refine ⟨l.get c, List.get_mem _ _, by simp [hc], fun him => ?_⟩
      obtain ⟨z, z1, z2, z3, -⟩ := he.pair _ (List.get_mem l c)
      have hz := z2 him
      have hy0 : (l.get c).2.2 ≠ 0 := z1.resolve_right (by rw [hz]; simp)
      rw [him, zero_smul, sub_zero] at z3
      set y := (l.get c).2.2 with hy
      have hmu : (l.get c).1 ≠ 0 := ((ritzValid_iff _).1 (q1 c hcm)).2.1
      obtain ⟨p, hpm⟩ : ∃ p, m = p + 1 := ⟨m - 1, by omega⟩
      have hden : (0 : ℝ) < vnorm y + 1 / 10 ^ 30 := by have := vnorm_nonneg y; positivity
      have heigen : ∀ i ≤ p, ∑ j ∈ Finset.range (p + 1), hess (arnoldi (gpuT K Kg free *ᵥ ·) v0 m).2 i j * ritzCoeff y j =
          (l.get c).1 * ritzCoeff y i := by
        intro i hi
        have hi2 : i < m := by omega
        have := congrFun z3 ⟨i, hi2⟩
        rw [← hpm, Finset.sum_range]
        simp only [mulVec, dotProduct, Pi.smul_apply, smul_eq_mul] at this
        rw [ritzCoeff, dif_pos hi2, ← mul_div_assoc, ← this, Finset.sum_div]
        refine Finset.sum_congr rfl fun j _ => ?_
        rw [ritzCoeff, dif_pos j.2, mul_div_assoc]
        rfl
      have hr := C107_ritz (gpuT K Kg free) hv0 (m := p) (l.get c).1 (ritzCoeff y) (by rw [← hpm]; rw [← hpm] at heigen; exact heigen)
      simp only [← hpm] at hr
      have hx0 : ritzRow V m (ritzCoeff y) ≠ 0 := by
        refine hr.2.2 hmu ?_
        obtain ⟨j, hj⟩ := Function.ne_iff.1 hy0
        refine ⟨j, by have := j.2; omega, ?_⟩
        rw [ritzCoeff, dif_pos j.2]
        exact div_ne_zero hj hden.ne'
      obtain ⟨a, a1, a2, e, e1, e2⟩ := (ritzScale_spec hp.ok.spd _).2 hx0
      simp only [hfull]
      refine ⟨?_, a, _, a1, a2, ?_⟩
      · show phi c ≠ 0
        simp only [hphi]
        rw [a2]
        exact smul_ne_zero a1.ne' hx0
      · have hpp : m - 1 = p := by omega
        rw [hpp]
        exact hr.1
  · intro i hi1 hi2
    have hi1' : order.length ≤ i := by simpa using hi1
    rw [ho, List.getElem?_append_right (by simpa using hi1'), List.getElem?_replicate, if_pos (by simp; omega)]
  · intro t ht
    obtain ⟨c, rest, hc, hle⟩ := hconv t ht
    refine ⟨1 / (l.get c).1, Mode.mk (.fin (1 / (l.get c).1)) (scatterMode K.numRows free (phi c)) (List.ofFn (phi c)), by rw [hc]; rfl,
      by rw [ho, hc]; rfl, ?_⟩
    simp only [hfull]
    rw [one_div_one_div]
    exact hle
/-! ## As many steps as free DOFs -/

/-- Without a breakdown, `n` steps in dimension `n` give a basis on which the operator is the Hessenberg matrix. -/
theorem arnoldi_full {n : ℕ} (T : Matrix (Fin n) (Fin n) ℝ) {v0 : Fin n → ℝ} (hv0 : v0 ≠ 0) {m : ℕ} (hm : m = n)
    (hnb : ∀ i < m, rowV (arnoldi (T *ᵥ ·) v0 m).1 i ≠ 0) :
    (∀ y : Fin m → ℝ, T *ᵥ rowComb (arnoldi (T *ᵥ ·) v0 m).1 y =
      rowComb (arnoldi (T *ᵥ ·) v0 m).1 (hessMatrix m (arnoldi (T *ᵥ ·) v0 m).2 *ᵥ y)) ∧
    (∀ y : Fin m → ℝ, rowComb (arnoldi (T *ᵥ ·) v0 m).1 y = 0 → y = 0) ∧
    ∀ x, ∃ y : Fin m → ℝ, x = rowComb (arnoldi (T *ᵥ ·) v0 m).1 y := by
  subst hm
  rename ℕ => n
  obtain ⟨I, -⟩ := arnoldi_inv (T *ᵥ ·) hv0 n
  set V := (arnoldi (T *ᵥ ·) v0 n).1 with hV
  set H := (arnoldi (T *ᵥ ·) v0 n).2 with hH
  have hone : ∀ i : Fin n, ∀ j : Fin n, vdot (rowV V i) (rowV V j) = if i = j then 1 else 0 := by
    intro i j
    split_ifs with h
    · subst h; exact (I.unit i (by omega)).resolve_right (hnb i i.2)
    · exact I.orth i (by omega) j (by omega) fun e => h (Fin.ext e)
  set Q : Matrix (Fin n) (Fin n) ℝ := fun i k => rowV V i k with hQ
  have hQQ : Q * Qᵀ = 1 := by
    ext i j
    rw [Matrix.mul_apply, Matrix.one_apply, ← hone i j]
    rfl
  have hQQ' : Qᵀ * Q = 1 := mul_eq_one_comm.1 hQQ
  have hcomb : ∀ y : Fin n → ℝ, rowComb V y = Qᵀ *ᵥ y := by
    intro y
    funext k
    rw [rowComb, Finset.sum_apply]
    simp only [Pi.smul_apply, smul_eq_mul, mulVec, dotProduct, hQ]
    exact Finset.sum_congr rfl fun j _ => mul_comm _ _
  have hzero : ∀ w : Fin n → ℝ, (∀ i : Fin n, vdot (rowV V i) w = 0) → w = 0 := by
    intro w hw
    have h1 : Q *ᵥ w = 0 := funext fun i => hw i
    rw [← one_mulVec w, ← hQQ', ← mulVec_mulVec, h1, mulVec_zero]
  have hcol : ∀ j : Fin n, T *ᵥ rowV V j = ∑ i : Fin n, hess H i j • rowV V i := by
    intro j
    obtain ⟨w, w1, w2, w3⟩ := I.next j j.2
    have hw : w = vnorm w • rowV V (j + 1) ∨ (w = 0 ∧ (j : ℕ) + 1 = n) := by
      by_cases hj : (j : ℕ) + 1 < n
      · left
        rcases nextRow_spec w with ⟨-, h⟩ | ⟨h, -⟩
        · rw [w3]; exact h.symm
        · exact absurd (w3.trans h) (hnb _ hj)
      · right
        have hj1 : (j : ℕ) + 1 = n := by omega
        refine ⟨hzero w fun i => ?_, hj1⟩
        have hi : (i : ℕ) ≤ j := by omega
        have hd : vdot (rowV V i) (T *ᵥ rowV V j) = hess H i j := (I.proj j j.2 i hi).symm
        have w1' : T *ᵥ rowV V j = (∑ k ∈ Finset.range (j + 1), hess H k j • rowV V k) + w := w1
        rw [w1', vdot_add, vdot_sum, Finset.sum_eq_single (i : ℕ)] at hd
        · rw [vdot_smul, hone i i, if_pos rfl] at hd
          linarith
        · intro k hk hki
          have hkn : k < n := by have := Finset.mem_range.1 hk; omega
          rw [vdot_smul, hone i ⟨k, hkn⟩, if_neg fun e => hki (by rw [e]), mul_zero]
        · intro hni
          exact absurd (Finset.mem_range.2 (by omega)) hni
    have hsplit : ∑ i : Fin n, hess H i j • rowV V i = ∑ i ∈ Finset.range n, hess H i j • rowV V i := (Finset.sum_range fun i => hess H i j • rowV V i).symm
    rw [hsplit]
    have w1' : T *ᵥ rowV V j = (∑ k ∈ Finset.range (j + 1), hess H k j • rowV V k) + w := w1
    rw [w1']
    rcases hw with hw | ⟨hw, hj⟩
    · by_cases hj : (j : ℕ) + 1 < n
      · have hsub : Finset.range ((j : ℕ) + 2) ⊆ Finset.range n := Finset.range_subset_range.2 (by omega)
        rw [← Finset.sum_subset hsub, Finset.sum_range_succ _ ((j : ℕ) + 1), w2, ← hw]
        intro i _ hi
        rw [I.low j j.2 i (by have := Finset.mem_range.not.1 hi; omega), zero_smul]
      · have hj1 : (j : ℕ) + 1 = n := by omega
        have : w = 0 := by
          refine hzero w fun i => ?_
          rw [hw, vdot_smul, I.orth i (by omega) (j + 1) (by omega) (by have := i.2; omega), mul_zero]
        rw [this, add_zero, hj1]
    · rw [hw, add_zero, hj]
  refine ⟨?_, ?_, ?_⟩
  · intro y
    have h1 : T *ᵥ rowComb V y = ∑ j : Fin n, y j • (T *ᵥ rowV V j) := by
      rw [rowComb, Matrix.mulVec_sum]
      exact Finset.sum_congr rfl fun j _ => Matrix.mulVec_smul _ _ _
    rw [h1, rowComb]
    simp only [hcol, Finset.smul_sum]
    rw [Finset.sum_comm]
    refine Finset.sum_congr rfl fun i _ => ?_
    simp only [mulVec, dotProduct, hessMatrix]
    rw [Finset.sum_smul]
    refine Finset.sum_congr rfl fun j _ => ?_
    rw [smul_smul, mul_comm]
  · intro y hy
    rw [hcomb] at hy
    rw [← one_mulVec y, ← hQQ, ← mulVec_mulVec, hy, mulVec_zero]
  · intro x
    refine ⟨Q *ᵥ x, ?_⟩
    rw [hcomb, mulVec_mulVec, hQQ', one_mulVec]

/-- The operator is symmetric in the product of the stiffness. -/
theorem gpuT_symm {K Kg : CSRMatrix ℝ} {free : List ℕ} (hb : BucklingOk K Kg free) (x y : Fin free.length → ℝ) :
    x ⬝ᵥ (restrict K free *ᵥ (gpuT K Kg free *ᵥ y)) = y ⬝ᵥ (restrict K free *ᵥ (gpuT K Kg free *ᵥ x)) := by
  have hk : ∀ v, restrict K free *ᵥ (gpuT K Kg free *ᵥ v) = -(restrict Kg free *ᵥ v) := by
    intro v
    rw [gpuT, shiftInvert, half_sym hb.spd.1, neg_mulVec, mulVec_neg, ← mulVec_mulVec, mulVec_mulVec,
      mul_nonsing_inv _ (spd_isUnit hb.spd), one_mulVec]
  rw [hk, hk, dotProduct_neg, dotProduct_neg, dotProduct_mulVec, ← mulVec_transpose, hb.sym, dotProduct_comm]

/-- **C131, exactness** (partial). With as many steps as free DOFs and no breakdown of the iteration, the solver returns genuine modes,
not zero, and misses none: any other mode has a factor no lower than the returned ones, of which there are then `num_modes`. Missing:
fewer steps (`C131_returned`) and breakdown, which repeated factors force (`C131_repeated_factor_missed`). -/
theorem C131_exact_partial {ops : CudssOps} (ha : ArgsortOk ops) {K Kg : CSRMatrix ℝ} {free : List ℕ} (hp : GpuProblem K Kg free)
    (hs : ∀ b, restrict K free *ᵥ ops.solve (restrict K free) b = b) {nm mo : ℕ} {convTol : Option ℝ} {v0 : Fin free.length → ℝ}
    (hv0 : v0 ≠ 0) (he : NumpyEig (gpuH K Kg free v0 (cudssSteps free.length mo nm)) (ops.eig (gpuH K Kg free v0 (cudssSteps free.length mo nm))))
    (hfull : cudssSteps free.length mo nm = free.length)
    (hnb : ∀ i < free.length, rowV (arnoldi (gpuT K Kg free *ᵥ ·) v0 (cudssSteps free.length mo nm)).1 i ≠ 0)
    {out : List Mode} (hout : cudssForward ops nm mo convTol free v0 K Kg = .ok out) :
    ∃ lams : List ℝ, lams.length ≤ mo ∧ lams.Pairwise (· ≤ ·) ∧
    (∀ i (hi : i < lams.length), ∃ md, out[i]? = some md ∧ md.lam = .fin lams[i] ∧ sparseTol < lams[i] ∧
      onFree free md.full ≠ 0 ∧ BucklingMode K Kg free lams[i] (onFree free md.full) ∧
      ∃ e > 0, kProd K free (onFree free md.full) (onFree free md.full) = e / (e + 1 / 10 ^ 300)) ∧
    ∀ lam x, sparseTol < lam → x ≠ 0 → BucklingMode K Kg free lam x → lam ∈ lams ∨ (lams.length = mo ∧ ∀ l ∈ lams, l ≤ lam) := by
  obtain ⟨h1, h2⟩ := tApply_eq hp hs
  set m := cudssSteps free.length mo nm with hm
  have hm2 : 2 ≤ m := by
    by_contra h
    unfold cudssForward at hout
    simp only at hout
    rw [if_pos (by omega)] at hout
    simp at hout
  have hrun : cudssRun ops m mo convTol K.numRows free v0 (restrict K free) (gpuT K Kg free *ᵥ ·) = .ok out := by
    unfold cudssForward at hout
    simp only at hout
    rw [if_neg (by omega), h2, h1] at hout
    exact hout
  have hspec := (cudssRun_spec ops m mo convTol K.numRows free v0 (restrict K free) (gpuT K Kg free) out).1 hrun
  change _ ∧ _ at hspec
  obtain ⟨A1, A2, A3⟩ := arnoldi_full (gpuT K Kg free) hv0 hfull (fun i hi => hnb i (by omega))
  set V := (arnoldi (gpuT K Kg free *ᵥ ·) v0 m).1 with hV
  set l := ops.eig (gpuH K Kg free v0 m) with hl
  set order := ritzOrder ops mo l with horder
  set phi : Fin l.length → Fin free.length → ℝ := fun c => ritzScale (restrict K free) (ritzRow V m (ritzCoeff (l.get c).2.2)) with hphi
  obtain ⟨ho, -⟩ := hspec
  change out = (order.map fun c => Mode.mk (.fin (1 / (l.get c).1)) (scatterMode K.numRows free (phi c)) (List.ofFn (phi c))) ++
        List.replicate (mo - order.length) (Mode.mk .pinf (List.replicate K.numRows 0) (List.replicate free.length 0)) at ho
  obtain ⟨q1, q2, q3, q4, q5⟩ := ritzOrder_spec ha mo l
  rw [← horder] at q4 q5
  have hfree : ∀ x, onFree free (scatterMode K.numRows free x) = x := fun x => onFree_scatter hp.ok.nodup hp.ok.range x
  -- every value is real
  have hreal : ∀ e ∈ l, e.2.1 = 0 := by
    intro e hel
    obtain ⟨z, z1, -, z3, z4⟩ := he.pair e hel
    set Y := rowComb V e.2.2 with hY
    set Z := rowComb V z with hZ
    have hlin : ∀ (a b : ℝ) (p q : Fin m → ℝ), rowComb V (a • p + b • q) = a • rowComb V p + b • rowComb V q := by
      intro a b p q
      simp only [rowComb, Pi.add_apply, Pi.smul_apply, smul_eq_mul, add_smul, mul_smul, Finset.sum_add_distrib, Finset.smul_sum]
    have hTY : gpuT K Kg free *ᵥ Y = e.1 • Y + (-e.2.1) • Z := by
      rw [hY, A1]
      change rowComb V (gpuH K Kg free v0 m *ᵥ e.2.2) = _
      rw [z3, sub_eq_add_neg, ← neg_smul, hlin]
    have hTZ : gpuT K Kg free *ᵥ Z = e.1 • Z + e.2.1 • Y := by
      rw [hZ, A1]
      change rowComb V (gpuH K Kg free v0 m *ᵥ z) = _
      rw [z4, hlin]
    have hsym := gpuT_symm hp.ok Y Z
    have hYZ : Y ⬝ᵥ (restrict K free *ᵥ Z) = Z ⬝ᵥ (restrict K free *ᵥ Y) := by
      rw [dotProduct_mulVec, ← mulVec_transpose, hp.ok.spd.1, dotProduct_comm]
    rw [hTY, hTZ] at hsym
    simp only [mulVec_add, mulVec_smul, dotProduct_add, dotProduct_smul, smul_eq_mul] at hsym
    have hsum : e.2.1 * (Y ⬝ᵥ (restrict K free *ᵥ Y) + Z ⬝ᵥ (restrict K free *ᵥ Z)) = 0 := by
      rw [hYZ] at hsym
      linarith
    rcases mul_eq_zero.1 hsum with h | h
    · exact h
    · exfalso
      have hnn : ∀ v, 0 ≤ v ⬝ᵥ (restrict K free *ᵥ v) := by
        intro v
        by_cases hv : v = 0
        · rw [hv]; simp
        · exact (hp.ok.spd.2 v hv).le
      rcases z1 with hne | hne
      · have := hp.ok.spd.2 Y fun h0 => hne (A2 _ h0)
        linarith [hnn Z]
      · have := hp.ok.spd.2 Z fun h0 => hne (A2 _ h0)
        linarith [hnn Y]
  have hpair : ∀ e ∈ l, e.2.2 ≠ 0 ∧ gpuH K Kg free v0 m *ᵥ e.2.2 = e.1 • e.2.2 := by
    intro e hel
    obtain ⟨z, z1, z2, z3, -⟩ := he.pair e hel
    have hz := z2 (hreal e hel)
    refine ⟨z1.resolve_right (by rw [hz]; simp), ?_⟩
    rw [z3, hreal e hel, zero_smul, sub_zero]
  refine ⟨order.map fun c => 1 / (l.get c).1, by simpa using q4, by rw [List.pairwise_map]; exact q2, ?_, ?_⟩
  · intro i hi
    have hi' : i < order.length := by simpa using hi
    set c := order[i] with hc
    have hcm : c ∈ order := List.getElem_mem _
    obtain ⟨hy0, hHy⟩ := hpair _ (List.get_mem l c)
    obtain ⟨-, hmu, htol⟩ := (ritzValid_iff _).1 (q1 c hcm)
    have hden : (0 : ℝ) < vnorm (l.get c).2.2 + 1 / 10 ^ 30 := by have := vnorm_nonneg (l.get c).2.2; positivity
    have hx0 : ritzRow V m (ritzCoeff (l.get c).2.2) ≠ 0 := by
      rw [ritzRow_eq]
      exact smul_ne_zero (one_div_ne_zero hden.ne') fun h0 => hy0 (A2 _ h0)
    have hTx : gpuT K Kg free *ᵥ ritzRow V m (ritzCoeff (l.get c).2.2) = (l.get c).1 • ritzRow V m (ritzCoeff (l.get c).2.2) := by
      rw [ritzRow_eq, mulVec_smul, A1]
      change _ • rowComb V (gpuH K Kg free v0 m *ᵥ _) = _
      rw [hHy, smul_comm]
      congr 1
      simp only [rowComb, Pi.smul_apply, smul_eq_mul, mul_smul, Finset.smul_sum]
    obtain ⟨a, a1, a2, e, e1, e2⟩ := (ritzScale_spec hp.ok.spd _).2 hx0
    refine ⟨Mode.mk (.fin (1 / (l.get c).1)) (scatterMode K.numRows free (phi c)) (List.ofFn (phi c)), ?_, ?_, ?_, ?_, ?_, ?_⟩
    · rw [ho, List.getElem?_append_left (by simpa using hi'), List.getElem?_map, List.getElem?_eq_getElem hi']
      rfl
    · simp [hc]
    · simpa [hc] using htol
    · simp only [hfree, hphi]
      rw [a2]
      exact smul_ne_zero a1.ne' hx0
    · simp only [hfree, List.getElem_map]
      rw [mode_shift hp.ok (one_div_ne_zero hmu), one_div_one_div]
      simp only [hphi]
      change gpuT K Kg free *ᵥ _ = _
      rw [a2, mulVec_smul, hTx, smul_comm]
    · simp only [hfree]
      exact ⟨e, e1, by rw [kProd_eq]; exact e2⟩
  · intro lam x hlam hx hmode
    have hpos : 0 < lam := lt_trans (by norm_num [sparseTol]) hlam
    rw [mode_shift hp.ok hpos.ne'] at hmode
    change gpuT K Kg free *ᵥ x = _ at hmode
    obtain ⟨y, rfl⟩ := A3 x
    have hy0 : y ≠ 0 := fun h => hx (by rw [h]; simp [rowComb])
    have hHy : gpuH K Kg free v0 m *ᵥ y = (1 / lam) • y := by
      rw [A1] at hmode
      have : rowComb V (gpuH K Kg free v0 m *ᵥ y - (1 / lam) • y) = 0 := by
        have hs : rowComb V (gpuH K Kg free v0 m *ᵥ y - (1 / lam) • y) = rowComb V (gpuH K Kg free v0 m *ᵥ y) - (1 / lam) • rowComb V y := by
          simp only [rowComb, Pi.sub_apply, Pi.smul_apply, smul_eq_mul, sub_smul, mul_smul, Finset.sum_sub_distrib, Finset.smul_sum]
        rw [hs, sub_eq_zero]
        exact hmode
      exact sub_eq_zero.1 (A2 _ this)
    obtain ⟨e, hel, hemu, heim⟩ := he.all _ y hy0 hHy
    obtain ⟨i, hi⟩ := List.get_of_mem hel
    have hval : ritzValid (l.get i) = true := by
      rw [hi]
      exact ritzValid_of_real heim (by rw [hemu]; positivity) (by rw [hemu, one_div_one_div]; exact hlam)
    have hli : 1 / (l.get i).1 = lam := by rw [hi, hemu, one_div_one_div]
    by_cases hin : i ∈ order
    · exact .inl (List.mem_map.2 ⟨i, hin, hli⟩)
    · obtain ⟨r1, r2⟩ := q5 i hval hin
      refine .inr ⟨by simpa using r1, fun b hb => ?_⟩
      obtain ⟨j, hj, rfl⟩ := List.mem_map.1 hb
      rw [← hli]
      exact r2 j hj
/-! ## Repeated factors, indefinite stiffness, triangular storage -/

theorem diag_mirror (free : List ℕ) (k : List ℝ) : MirrorPattern (diagCsr k) free := by
  have h : ∀ s < k.length, (List.range k.length).getD s 0 = s := fun s hs => by
    rw [List.getD_eq_getElem _ _ (by simpa using hs), List.getElem_range]
  constructor
  · intro s hs t ht h1 _
    have hs' : s < k.length := by simpa [diagCsr] using hs
    have ht' : t < k.length := by simpa [diagCsr] using ht
    rwa [diagCsr_rows, h s hs', h t ht'] at h1
  · rintro r _ c _ ⟨s, hs, h1, h2⟩
    have hs' : s < k.length := by simpa [diagCsr] using hs
    refine ⟨s, hs, ?_, ?_⟩
    · rw [diagCsr_rows, h s hs', ← h2]; exact (h s hs').symm
    · rw [← h1, diagCsr_rows, h s hs']; exact h s hs'

theorem countP_two {α : Type*} (p : α → Bool) (l : List α) (i j : Fin l.length) (hij : i < j) (hi : p (l.get i) = true)
    (hj : p (l.get j) = true) : 2 ≤ l.countP p := by
  have hl : l.take j ++ l.drop j = l := List.take_append_drop _ _
  rw [← hl, List.countP_append]
  have h1 : 0 < (l.take j).countP p := by
    rw [List.countP_pos_iff]
    exact ⟨l.get i, List.mem_take_iff_getElem.2 ⟨i, by have := i.2; have : (i : ℕ) < j := hij; omega, rfl⟩, hi⟩
  have h2 : 0 < (l.drop j).countP p := by
    rw [List.countP_pos_iff]
    refine ⟨l.get j, ?_, hj⟩
    rw [List.drop_eq_getElem_cons j.2]
    exact List.mem_cons_self
  omega

/-- Two steps with the identity as operator: the second row breaks down. -/
theorem arnoldi_one {n : ℕ} {v0 : Fin n → ℝ} (hv0 : v0 ≠ 0) :
    hessMatrix 2 (arnoldi ((1 : Matrix (Fin n) (Fin n) ℝ) *ᵥ ·) v0 2).2 = !![1, 0; 0, 0] := by
  obtain ⟨I, h0⟩ := arnoldi_inv ((1 : Matrix (Fin n) (Fin n) ℝ) *ᵥ ·) hv0 2
  set V := (arnoldi ((1 : Matrix (Fin n) (Fin n) ℝ) *ᵥ ·) v0 2).1
  set H := (arnoldi ((1 : Matrix (Fin n) (Fin n) ℝ) *ᵥ ·) v0 2).2
  have hne := arnoldi_first ((1 : Matrix (Fin n) (Fin n) ℝ) *ᵥ ·) hv0 2
  have h00 : hess H 0 0 = 1 := by
    rw [I.proj 0 (by omega) 0 le_rfl, one_mulVec]
    exact (I.unit 0 (by omega)).resolve_right hne
  obtain ⟨w, w1, w2, w3⟩ := I.next 0 (by omega)
  have hw : w = 0 := by
    simp only [one_mulVec] at w1
    rw [Finset.sum_range_one, h00, one_smul] at w1
    exact (left_eq_add.1 w1)
  have h1 : rowV V 1 = 0 := by
    have : rowV V (0 + 1) = nextRow w := w3
    rw [hw, nextRow, smul_zero] at this
    exact this
  have h10 : hess H 1 0 = 0 := by
    have : hess H (0 + 1) 0 = vnorm w := w2
    rwa [hw, vnorm_zero] at this
  have h01 : hess H 0 1 = 0 := by rw [I.proj 1 (by omega) 0 (by omega), one_mulVec, h1, vdot_zero]
  have h11 : hess H 1 1 = 0 := by rw [I.proj 1 (by omega) 1 le_rfl, one_mulVec, h1, vdot_zero]
  ext i j
  fin_cases i <;> fin_cases j <;> simp [hessMatrix, h00, h10, h01, h11]

theorem eig_two {l : List (ℝ × ℝ × (Fin 2 → ℝ))} (he : NumpyEig !![1, 0; 0, 0] l) :
    (∀ e ∈ l, ritzValid e = true → e.1 = 1 ∧ e.2.1 = 0) ∧ (∃ e ∈ l, e.1 = 1 ∧ e.2.1 = 0) ∧
    ∀ i j : Fin l.length, ritzValid (l.get i) = true → ritzValid (l.get j) = true → i = j := by
  have hA : ∀ e ∈ l, ritzValid e = true → e.1 = 1 ∧ e.2.1 = 0 := by
    rintro ⟨a, b, y⟩ hel hv
    obtain ⟨-, hmu, -⟩ := (ritzValid_iff _).1 hv
    simp only at hmu
    obtain ⟨z, z1, z2, z3, z4⟩ := he.pair _ hel
    simp only at z1 z2 z3 z4
    have e1 := congrFun z3 0
    have e2 := congrFun z3 1
    have e3 := congrFun z4 0
    have e4 := congrFun z4 1
    simp [Matrix.mulVec, dotProduct, Fin.sum_univ_two] at e1 e2 e3 e4
    have s2 : (a ^ 2 + b ^ 2) * (y 1 ^ 2 + z 1 ^ 2) = 0 := by
      have g1 : a * y 1 - b * z 1 = 0 := by linarith
      have g2 : a * z 1 + b * y 1 = 0 := by linarith
      calc (a ^ 2 + b ^ 2) * (y 1 ^ 2 + z 1 ^ 2) = (a * y 1 - b * z 1) ^ 2 + (a * z 1 + b * y 1) ^ 2 := by ring
        _ = 0 := by rw [g1, g2]; ring
    have s1 : ((a - 1) ^ 2 + b ^ 2) * (y 0 ^ 2 + z 0 ^ 2) = 0 := by
      have g1 : (a - 1) * y 0 - b * z 0 = 0 := by linarith
      have g2 : (a - 1) * z 0 + b * y 0 = 0 := by linarith
      calc ((a - 1) ^ 2 + b ^ 2) * (y 0 ^ 2 + z 0 ^ 2) = ((a - 1) * y 0 - b * z 0) ^ 2 + ((a - 1) * z 0 + b * y 0) ^ 2 := by ring
        _ = 0 := by rw [g1, g2]; ring
    have ha2 : 0 < a ^ 2 := by positivity
    have t2 : y 1 ^ 2 + z 1 ^ 2 = 0 := (mul_eq_zero.1 s2).resolve_left (by positivity)
    have y1 : y 1 = 0 := by nlinarith [sq_nonneg (y 1), sq_nonneg (z 1)]
    have z1' : z 1 = 0 := by nlinarith [sq_nonneg (y 1), sq_nonneg (z 1)]
    have t1 : y 0 ^ 2 + z 0 ^ 2 ≠ 0 := by
      intro h
      have y0 : y 0 = 0 := by nlinarith [sq_nonneg (y 0), sq_nonneg (z 0)]
      have z0 : z 0 = 0 := by nlinarith [sq_nonneg (y 0), sq_nonneg (z 0)]
      rcases z1 with hne | hne
      · exact hne (funext fun i => by fin_cases i <;> simp [y0, y1])
      · exact hne (funext fun i => by fin_cases i <;> simp [z0, z1'])
    have t3 : (a - 1) ^ 2 + b ^ 2 = 0 := (mul_eq_zero.1 s1).resolve_right t1
    refine ⟨?_, ?_⟩
    · have : a - 1 = 0 := by nlinarith [sq_nonneg (a - 1), sq_nonneg b]
      simp only
      linarith
    · have : b = 0 := by nlinarith [sq_nonneg (a - 1), sq_nonneg b]
      exact this
  refine ⟨hA, he.all 1 ![1, 0] (fun h => by simpa using congrFun h 0) (funext fun i => by fin_cases i <;> simp), ?_⟩
  intro i j hi hj
  have hm := he.mult 1
  have hch : (!![1, 0; 0, 0] : Matrix (Fin 2) (Fin 2) ℝ).charpoly.rootMultiplicity 1 = 1 := by
    have hc : (!![1, 0; 0, 0] : Matrix (Fin 2) (Fin 2) ℝ).charpoly = (Polynomial.X - Polynomial.C 1) * Polynomial.X := by
      rw [Matrix.charpoly_fin_two]
      simp [Matrix.trace_fin_two, Matrix.det_fin_two]
      ring
    rw [hc, Polynomial.rootMultiplicity_mul (mul_ne_zero (Polynomial.X_sub_C_ne_zero _) Polynomial.X_ne_zero),
      Polynomial.rootMultiplicity_X_sub_C_self]
    have : Polynomial.rootMultiplicity (1 : ℝ) Polynomial.X = 0 := by
      rw [Polynomial.rootMultiplicity_eq_zero_iff]
      intro h
      simp [Polynomial.IsRoot] at h
    rw [this]
  rw [hch] at hm
  by_contra hne
  classical
  have key : ∀ a b : Fin l.length, a < b → ritzValid (l.get a) = true → ritzValid (l.get b) = true → False := by
    intro a b hab h1 h2
    have := countP_two (fun e : ℝ × ℝ × (Fin 2 → ℝ) => decide (e.1 = 1 ∧ e.2.1 = 0)) l a b hab
      (by simpa using hA _ (List.get_mem l a) h1) (by simpa using hA _ (List.get_mem l b) h2)
    have h3 : l.countP (fun e : ℝ × ℝ × (Fin 2 → ℝ) => decide (e.1 = 1 ∧ e.2.1 = 0)) = 1 := by
      convert hm
    omega
  rcases lt_or_gt_of_ne hne with h | h
  · exact key i j h hi hj
  · exact key j i h hj hi

/-- A run with the identity as operator finds one factor only. -/
theorem run_one {ops : CudssOps} (ha : ArgsortOk ops) (N : ℕ) (free : List ℕ) {v0 : Fin free.length → ℝ} (hv0 : v0 ≠ 0)
    (Kf : Matrix (Fin free.length) (Fin free.length) ℝ)
    (he : NumpyEig (hessMatrix 2 (arnoldi ((1 : Matrix (Fin free.length) (Fin free.length) ℝ) *ᵥ ·) v0 2).2)
      (ops.eig (hessMatrix 2 (arnoldi ((1 : Matrix (Fin free.length) (Fin free.length) ℝ) *ᵥ ·) v0 2).2))) {t : ℝ} (ht : 0 ≤ t) :
    ∃ x, cudssRun ops 2 2 (some t) N free v0 Kf ((1 : Matrix (Fin free.length) (Fin free.length) ℝ) *ᵥ ·) =
      .ok [⟨.fin 1, scatterMode N free (ritzScale Kf x), List.ofFn (ritzScale Kf x)⟩, ⟨.pinf, List.replicate N 0, List.replicate free.length 0⟩] := by
  have hspec := cudssRun_spec ops 2 2 (some t) N free v0 Kf 1
  simp only at hspec
  set l := ops.eig (hessMatrix 2 (arnoldi ((1 : Matrix (Fin free.length) (Fin free.length) ℝ) *ᵥ ·) v0 2).2) with hl
  rw [arnoldi_one hv0] at he
  obtain ⟨b1, ⟨e, hel, hb2⟩, b3⟩ := eig_two he
  obtain ⟨i, hi⟩ := List.get_of_mem hel
  have hiv : ritzValid (l.get i) = true := by
    rw [hi]
    exact ritzValid_of_real hb2.2 (by rw [hb2.1]; norm_num) (by rw [hb2.1]; norm_num [sparseTol])
  obtain ⟨q1, -, q3, -, q5⟩ := ritzOrder_spec ha 2 l
  have hin : i ∈ ritzOrder ops 2 l := by
    by_contra hn
    obtain ⟨r1, -⟩ := q5 i hiv hn
    obtain ⟨a, b, hab⟩ := List.length_eq_two.1 r1
    rw [hab] at q1 hn
    exact hn (by rw [b3 i a hiv (q1 a (by simp))]; simp)
  have hord : ritzOrder ops 2 l = [i] := by
    have : ∀ c ∈ ritzOrder ops 2 l, c = i := fun c hc => b3 c i (q1 c hc) hiv
    exact List.perm_singleton.1 ((List.perm_ext_iff_of_nodup q3 (List.nodup_singleton _)).2 fun c =>
      ⟨fun hc => List.mem_singleton.2 (this c hc), fun hc => by rw [List.mem_singleton.1 hc]; exact hin⟩)
  refine ⟨ritzRow (arnoldi ((1 : Matrix (Fin free.length) (Fin free.length) ℝ) *ᵥ ·) v0 2).1 2 (ritzCoeff (l.get i).2.2), (hspec _).2 ⟨?_, ?_⟩⟩
  rotate_left
  · intro t' ht'
    obtain rfl := Option.some.inj ht'
    refine ⟨i, [], hord, ?_⟩
    have h1 : (l.get i).1 = 1 := by rw [hi]; exact hb2.1
    rw [one_mulVec, h1, one_smul, sub_self, vnorm_zero]
    have := vnorm_nonneg (ritzScale Kf (ritzRow (arnoldi ((1 : Matrix (Fin free.length) (Fin free.length) ℝ) *ᵥ ·) v0 2).1 2 (ritzCoeff (l.get i).2.2)))
    positivity
  · rw [hord]
    have h1 : (l.get i).1 = 1 := by rw [hi]; exact hb2.1
    simp only [List.map_cons, List.map_nil, List.length_singleton, h1, one_div_one]
    rfl
theorem steps_two (nm : ℕ) : cudssSteps (List.range 2).length 2 nm = 2 := by
  simp only [cudssSteps, List.length_range]; omega

theorem pair_gpu : GpuProblem (diagCsr [1, 1]) (diagCsr [-1, -1]) (List.range 2) where
  ok := pair_ok
  wfK := diagCsr_wf _
  wfG := diagCsr_wf _
  pattern := diag_mirror _ _
  colsK := by intro i hi; simpa [diagCsr] using hi
  rowsG := by intro i hi; simpa [diagCsr] using hi
  colsG := by intro i hi; simpa [diagCsr] using hi

theorem pair_gpuT : gpuT (diagCsr [1, 1]) (diagCsr [-1, -1]) (List.range 2) = 1 := by
  rw [gpuT, pair_mats.1, pair_mats.2, shiftInvert, half_sym (by simp)]
  simp

/-- **C131, violated: a double factor is found once.** Two equal springs that soften alike: the factor 1 has two independent modes
(every vector is one). Asked for two modes, the GPU solver returns the factor 1 once and `inf` for the second, whatever the starting
vector, the number of steps and the tolerance. -/
theorem C131_repeated_factor_missed {ops : CudssOps} (ha : ArgsortOk ops)
    (hs : ∀ b, restrict (diagCsr [1, 1]) (List.range 2) *ᵥ ops.solve (restrict (diagCsr [1, 1]) (List.range 2)) b = b) {nm : ℕ} {t : ℝ}
    (ht : 0 ≤ t) {v0 : Fin (List.range 2).length → ℝ} (hv0 : v0 ≠ 0)
    (he : NumpyEig (gpuH (diagCsr [1, 1]) (diagCsr [-1, -1]) (List.range 2) v0 2)
      (ops.eig (gpuH (diagCsr [1, 1]) (diagCsr [-1, -1]) (List.range 2) v0 2))) :
    (∀ x, BucklingMode (diagCsr [1, 1]) (diagCsr [-1, -1]) (List.range 2) 1 x) ∧
    ∃ md, cudssForward ops nm 2 (some t) (List.range 2) v0 (diagCsr [1, 1]) (diagCsr [-1, -1]) =
      .ok [md, ⟨.pinf, List.replicate 2 0, List.replicate 2 0⟩] ∧ md.lam = .fin 1 := by
  refine ⟨pair_mode, ?_⟩
  obtain ⟨h1, h2⟩ := tApply_eq pair_gpu hs
  rw [gpuH, pair_gpuT] at he
  obtain ⟨x, hx⟩ := run_one ha 2 (List.range 2) hv0 (restrict (diagCsr [1, 1]) (List.range 2)) he ht
  have hrun : cudssForward ops nm 2 (some t) (List.range 2) v0 (diagCsr [1, 1]) (diagCsr [-1, -1]) =
      cudssRun ops 2 2 (some t) 2 (List.range 2) v0 (restrict (diagCsr [1, 1]) (List.range 2))
        ((1 : Matrix (Fin (List.range 2).length) (Fin (List.range 2).length) ℝ) *ᵥ ·) := by
    unfold cudssForward
    simp only [steps_two]
    rw [if_neg (by omega), h2, h1, pair_gpuT]
    rfl
  rw [hrun]
  exact ⟨_, hx, rfl⟩

theorem indef_mats : restrict (diagCsr [-1, -1]) (List.range 2) = -1 ∧ restrict (diagCsr [1, 1]) (List.range 2) = 1 :=
  ⟨pair_mats.2, pair_mats.1⟩

/-- **C131, violated: an indefinite stiffness goes unnoticed.** With `K = -I` and `K_g = I` (unstable already without load) and a solver
that does solve with `K` (`LDLᵀ` does not need a definite matrix), the GPU solver returns the factor 1 with a mode that is zero, and
its convergence test passes for every tolerance. -/
theorem C131_indefinite_silent {ops : CudssOps} (ha : ArgsortOk ops)
    (hs : ∀ b, restrict (diagCsr [-1, -1]) (List.range 2) *ᵥ ops.solve (restrict (diagCsr [-1, -1]) (List.range 2)) b = b) {nm : ℕ} {t : ℝ}
    (ht : 0 ≤ t) {v0 : Fin (List.range 2).length → ℝ} (hv0 : v0 ≠ 0)
    (he : NumpyEig (hessMatrix 2 (arnoldi ((1 : Matrix (Fin (List.range 2).length) (Fin (List.range 2).length) ℝ) *ᵥ ·) v0 2).2)
      (ops.eig (hessMatrix 2 (arnoldi ((1 : Matrix (Fin (List.range 2).length) (Fin (List.range 2).length) ℝ) *ᵥ ·) v0 2).2))) :
    ¬ Spd (restrict (diagCsr [-1, -1]) (List.range 2)) ∧
    cudssForward ops nm 2 (some t) (List.range 2) v0 (diagCsr [-1, -1]) (diagCsr [1, 1]) =
      .ok [⟨.fin 1, [0, 0], [0, 0]⟩, ⟨.pinf, [0, 0], [0, 0]⟩] := by
  have hr : ∀ k : List ℝ, k.length = 2 → ∀ r ∈ List.range 2, r < (diagCsr k).numRows := by
    intro k hk r h; simpa [diagCsr, hk] using h
  have hc : ∀ k : List ℝ, k.length = 2 → ∀ r ∈ List.range 2, r < (diagCsr k).numCols := by
    intro k hk r h; simpa [diagCsr, hk] using h
  have h1 : dense (List.range 2).length (redK (diagCsr [-1, -1]) (List.range 2)) = -1 := by
    rw [C131_symmetrise (diagCsr_wf _) (diag_mirror _ _) (hr _ rfl) (hc _ rfl), pair_mats.2, half_sym (by simp)]
  have h2 : dense (List.range 2).length (redKg (diagCsr [1, 1]) (List.range 2)) = 1 := by
    rw [C131_restrict (diagCsr_wf _) (hr _ rfl) (hc _ rfl), pair_mats.1]
  have hT : tApply ops (-1) (1 : Matrix (Fin (List.range 2).length) (Fin (List.range 2).length) ℝ) =
      ((1 : Matrix (Fin (List.range 2).length) (Fin (List.range 2).length) ℝ) *ᵥ ·) := by
    funext v
    have := hs v
    rw [pair_mats.2, neg_mulVec, one_mulVec] at this
    rw [tApply, one_mulVec, this]
  have hsc : ∀ x : Fin (List.range 2).length → ℝ, ritzScale (-1) x = 0 := by
    intro x
    have : ¬ 0 < vdot x ((-1 : Matrix (Fin (List.range 2).length) (Fin (List.range 2).length) ℝ) *ᵥ x) := by
      rw [neg_mulVec, one_mulVec]
      have h0 : 0 ≤ vdot x x := Finset.sum_nonneg fun i _ => mul_self_nonneg (x i)
      have h3 : vdot x (-x) = - vdot x x := by
        simp only [vdot, Pi.neg_apply, mul_neg, Finset.sum_neg_distrib]
      rw [h3]
      linarith
    rw [ritzScale, if_neg this, zero_smul]
  refine ⟨fun h => ?_, ?_⟩
  · rw [pair_mats.2] at h
    have := h.2 (fun _ => 1) (fun h0 => by simpa using congrFun h0 u0)
    rw [neg_mulVec, one_mulVec, dotProduct_neg] at this
    have h0 : (0 : ℝ) ≤ (fun _ : Fin (List.range 2).length => (1 : ℝ)) ⬝ᵥ (fun _ => 1) := Finset.sum_nonneg fun i _ => by norm_num
    linarith
  · obtain ⟨x, hx⟩ := run_one ha 2 (List.range 2) hv0 (-1) he ht
    unfold cudssForward
    simp only [steps_two]
    rw [if_neg (by omega), h1, h2, hT]
    have : (diagCsr [-1, -1]).numRows = 2 := rfl
    rw [this, hx, hsc]
    simp [scatterMode, List.replicate, scatterSet, List.range_succ]

/-- Six stored entries: the upper triangle of a `3 × 3` matrix with diagonal `2, 4, 2` and zeros elsewhere. -/
def upperCsr : CSRMatrix ℝ := ⟨[2, 0, 0, 4, 0, 2], [0, 3, 5, 6], [0, 1, 2, 1, 2, 2], 3, 3⟩

/-- **C131, triangular storage.** The stiffness may be stored as a triangle only; the matrix stored here is symmetric positive definite
either way it is read. The symmetrisation averages its second diagonal entry (4) with the entry in the corner (0): the matrix factorised
has 2 in both places. -/
theorem C131_triangular_storage : (∀ i j, i < 3 → j < 3 → upperCsr.todense i j = if i = j then if i = 1 then 4 else 2 else 0) ∧
    (redK upperCsr [0, 1, 2]).todense 1 1 = 2 ∧ (redK upperCsr [0, 1, 2]).todense 0 2 = 2 := by
  have he : redEntries upperCsr [0, 1, 2] = [(0, 0, 0), (0, 1, 1), (0, 2, 2), (1, 1, 3), (1, 2, 4), (2, 2, 5)] := by decide
  have ht : redTperm upperCsr [0, 1, 2] = [0, 1, 3, 2, 4, 5] := by
    rw [redTperm, he]; decide
  have hk : redK upperCsr [0, 1, 2] = ⟨[2, 0, 2, 2, 0, 2], [0, 3, 5, 6], [0, 1, 2, 1, 2, 2], 3, 3⟩ := by
    rw [redK, ht, redMatrix, redSlots, he]
    have : ptrOfRows 3 [0, 0, 0, 1, 1, 2] = [0, 3, 5, 6] := by decide
    simp only [List.map_cons, List.map_nil, List.length_cons, List.length_nil, this]
    norm_num [gather, upperCsr]
  have hw : CSRWF upperCsr := ⟨by decide, by decide, rfl, by decide⟩
  have hr : upperCsr.rowOfSlot = [0, 0, 0, 1, 1, 2] := by decide
  have hw' : CSRWF (redK upperCsr [0, 1, 2]) := by rw [hk]; exact ⟨by decide, by decide, rfl, by decide⟩
  have hr' : (redK upperCsr [0, 1, 2]).rowOfSlot = [0, 0, 0, 1, 1, 2] := by rw [hk]; decide
  have hi : (redK upperCsr [0, 1, 2]).indices = [0, 1, 2, 1, 2, 2] := by rw [hk]
  have hd : (redK upperCsr [0, 1, 2]).data = [2, 0, 2, 2, 0, 2] := by rw [hk]
  refine ⟨?_, ?_, ?_⟩
  · intro i j h1 h2
    rw [todense_eq_sum hw h1 h2, hr]
    have e1 : upperCsr.indices = [0, 1, 2, 1, 2, 2] := rfl
    have e2 : upperCsr.data = [2, 0, 0, 4, 0, 2] := rfl
    rw [e1, e2]
    interval_cases i <;> interval_cases j <;> simp [Finset.sum_range_succ]
  · rw [todense_eq_sum hw' (by rw [hk]; decide) (by rw [hk]; decide), hr', hi, hd]
    simp [Finset.sum_range_succ]
  · rw [todense_eq_sum hw' (by rw [hk]; decide) (by rw [hk]; decide), hr', hi, hd]
    simp [Finset.sum_range_succ]

/-- **C131, `matfree`.** What this solver returns, for whatever pairs the library finds: at most `num_modes` factors, ascending, above
`1e-12`, each the inverse of a (nearly real) value with its vector as mode, zero on the constrained DOFs; no other nearly real positive
value has a lower factor. With a tolerance, the solver refuses if there is none or the first pair misses the tolerance, and only then. -/
theorem C131_matfree {ops : CudssOps} (ha : ArgsortOk ops) {K Kg : CSRMatrix ℝ} {free : List ℕ} (hb : BucklingOk K Kg free) (m : ℕ)
    (convTol : Option ℝ) (vv : List (ℝ × ℝ × (Fin free.length → ℝ))) :
    ∃ cs : List (Fin vv.length), cs.Nodup ∧ cs.length ≤ m ∧ (∀ c ∈ cs, ritzValid (vv.get c) = true) ∧
    cs.Pairwise (fun i j => 1 / (vv.get i).1 ≤ 1 / (vv.get j).1) ∧
    (∀ i, ritzValid (vv.get i) = true → i ∉ cs → cs.length = m ∧ ∀ j ∈ cs, 1 / (vv.get j).1 ≤ 1 / (vv.get i).1) ∧
    (∀ out, matfreeBuckling ops m convTol free K Kg vv = .ok out → out.length = cs.length ∧
      ∀ i (hi : i < cs.length), ∃ mode, out[i]? = some (1 / (vv.get cs[i]).1, mode) ∧ sparseTol < 1 / (vv.get cs[i]).1 ∧
        onFree free mode = (vv.get cs[i]).2.2 ∧ ∀ d, d ∉ free → mode.getD d 0 = 0) ∧
    (matfreeBuckling ops m convTol free K Kg vv = .error .runtimeError ↔ ∃ t, convTol = some t ∧ (cs = [] ∨ ∃ c rest, cs = c :: rest ∧
      t * (vnorm (vv.get c).2.2 + 1 / 10 ^ 30) < vnorm (gpuT K Kg free *ᵥ (vv.get c).2.2 - (vv.get c).1 • (vv.get c).2.2))) ∧
    ((∃ out, matfreeBuckling ops m convTol free K Kg vv = .ok out) ∨ matfreeBuckling ops m convTol free K Kg vv = .error .runtimeError) := by
  obtain ⟨q1, q2, q3, q4, q5⟩ := ritzOrder_spec ha m vv
  set cs := ritzOrder ops m vv with hcs
  have hok : ∀ out, out = cs.map (fun c => (1 / (vv.get c).1, scatterMode K.numRows free (vv.get c).2.2)) → out.length = cs.length ∧
      ∀ i (hi : i < cs.length), ∃ mode, out[i]? = some (1 / (vv.get cs[i]).1, mode) ∧ sparseTol < 1 / (vv.get cs[i]).1 ∧
        onFree free mode = (vv.get cs[i]).2.2 ∧ ∀ d, d ∉ free → mode.getD d 0 = 0 := by
    rintro out rfl
    refine ⟨by simp, fun i hi => ⟨scatterMode K.numRows free (vv.get cs[i]).2.2, by simp [hi], ?_, ?_, ?_⟩⟩
    · exact ((ritzValid_iff _).1 (q1 _ (List.getElem_mem hi))).2.2
    · exact onFree_scatter hb.nodup hb.range _
    · exact fun d hd => scatter_off _ _ _ _ hd
  refine ⟨cs, q3, q4, q1, q2, q5, ?_⟩
  have hrun : matfreeBuckling ops m convTol free K Kg vv = match convTol with
      | none => .ok (cs.map fun c => (1 / (vv.get c).1, scatterMode K.numRows free (vv.get c).2.2))
      | some tol => match cs with
        | [] => .error .runtimeError
        | c :: _ => open Classical in
          if tol < ritzResidual (gpuT K Kg free) ((vv.get c).1, (vv.get c).2.2) then .error .runtimeError else
            .ok (cs.map fun c => (1 / (vv.get c).1, scatterMode K.numRows free (vv.get c).2.2)) := rfl
  rw [hrun]
  cases convTol with
  | none => exact ⟨fun out h => hok out (Except.ok.inj h).symm, by simp, .inl ⟨_, rfl⟩⟩
  | some tol =>
    simp only
    cases ho : cs with
    | nil => exact ⟨by simp, by simp, .inr rfl⟩
    | cons c rest =>
      rw [ho] at hok
      have hpos : 0 < vnorm (vv.get c).2.2 + 1 / 10 ^ 30 := by have := vnorm_nonneg (vv.get c).2.2; positivity
      have hiff : tol < ritzResidual (gpuT K Kg free) ((vv.get c).1, (vv.get c).2.2) ↔
          tol * (vnorm (vv.get c).2.2 + 1 / 10 ^ 30) < vnorm (gpuT K Kg free *ᵥ (vv.get c).2.2 - (vv.get c).1 • (vv.get c).2.2) := by
        rw [ritzResidual, lt_div_iff₀ hpos]
      simp only
      split_ifs with hr
      · refine ⟨by simp, ⟨fun _ => ⟨tol, rfl, .inr ⟨c, rest, rfl, hiff.1 hr⟩⟩, fun _ => rfl⟩, .inr rfl⟩
      · refine ⟨fun out h => hok out (Except.ok.inj h).symm, ⟨by simp, ?_⟩, .inl ⟨_, rfl⟩⟩
        rintro ⟨t, ht, h | ⟨c', rest', hcr, hlt⟩⟩
        · simp at h
        · obtain ⟨rfl, rfl⟩ := List.cons.inj hcr
          obtain rfl := Option.some.inj ht
          exact absurd (hiff.2 hlt) hr

/-! ## The hypotheses can be met -/

/-- Library routines that keep the contracts on these problems. -/
noncomputable def exCudss : CudssOps where
  solve A b := A⁻¹ *ᵥ b
  eig {m} _ := if m = 2 then [(1, 0, fun i => if i.1 = 0 then 1 else 0), (0, 0, fun i => if i.1 = 0 then 0 else 1)] else []
  argsort {n} key := (List.finRange n).insertionSort (fun i j => key i ≤ key j)

theorem exCudss_argsort : ArgsortOk exCudss := by
  intro n key
  refine ⟨List.perm_insertionSort _ _, ?_⟩
  have : Std.Total (fun i j : Fin n => key i ≤ key j) := ⟨fun i j => le_total _ _⟩
  have : IsTrans (Fin n) (fun i j : Fin n => key i ≤ key j) := ⟨fun i j k => le_trans⟩
  exact List.pairwise_insertionSort _ _

theorem exCudss_solve (b : Fin (List.range 2).length → ℝ) :
    restrict (diagCsr [1, 1]) (List.range 2) *ᵥ exCudss.solve (restrict (diagCsr [1, 1]) (List.range 2)) b = b := by
  rw [pair_mats.1]; simp [exCudss]
theorem exCudss_eig : NumpyEig !![1, 0; 0, 0] (exCudss.eig (!![1, 0; 0, 0] : Matrix (Fin 2) (Fin 2) ℝ)) := by
  have hl : exCudss.eig (!![1, 0; 0, 0] : Matrix (Fin 2) (Fin 2) ℝ) = [(1, 0, ![1, 0]), (0, 0, ![0, 1])] := by
    have h1 : (fun i : Fin 2 => if i.1 = 0 then (1 : ℝ) else 0) = ![1, 0] := by funext i; fin_cases i <;> rfl
    have h2 : (fun i : Fin 2 => if i.1 = 0 then (0 : ℝ) else 1) = ![0, 1] := by funext i; fin_cases i <;> rfl
    simp only [exCudss, if_true, h1, h2]
  rw [hl]
  constructor
  · intro e he
    simp only [List.mem_cons, List.not_mem_nil, or_false] at he
    rcases he with rfl | rfl
    · exact ⟨0, .inl fun h => by simpa using congrFun h 0, fun _ => rfl, by funext i; fin_cases i <;> simp, by simp⟩
    · exact ⟨0, .inl fun h => by simpa using congrFun h 1, fun _ => rfl, by funext i; fin_cases i <;> simp, by simp⟩
  · intro μ y hy h
    have e1 := congrFun h 0
    have e2 := congrFun h 1
    simp [Matrix.mulVec, dotProduct, Fin.sum_univ_two] at e1 e2
    rcases e2 with rfl | h1
    · exact ⟨_, List.mem_cons_of_mem _ List.mem_cons_self, rfl, rfl⟩
    · have h0 : y 0 ≠ 0 := fun h0 => hy (funext fun i => by fin_cases i <;> simp [h0, h1])
      refine ⟨_, List.mem_cons_self, ?_, rfl⟩
      have : (μ - 1) * y 0 = 0 := by linarith
      have := (mul_eq_zero.1 this).resolve_right h0
      simp only
      linarith
  · intro μ
    have hc : (!![1, 0; 0, 0] : Matrix (Fin 2) (Fin 2) ℝ).charpoly = (Polynomial.X - Polynomial.C 1) * (Polynomial.X - Polynomial.C 0) := by
      rw [Matrix.charpoly_fin_two]
      simp [Matrix.trace_fin_two, Matrix.det_fin_two]
      ring
    rw [hc, Polynomial.rootMultiplicity_mul (mul_ne_zero (Polynomial.X_sub_C_ne_zero _) (Polynomial.X_sub_C_ne_zero _))]
    classical
    rw [Polynomial.rootMultiplicity_X_sub_C, Polynomial.rootMultiplicity_X_sub_C]
    by_cases h1 : μ = 1
    · subst h1; simp
    · by_cases h0 : μ = 0
      · subst h0; simp
      · simp [h1, h0, Ne.symm h1, Ne.symm h0]

example : GpuProblem (diagCsr [1, 1]) (diagCsr [-1, -1]) (List.range 2) ∧ MirrorPattern (diagCsr [1, 1]) (List.range 2) :=
  ⟨pair_gpu, pair_gpu.pattern⟩

/-- The counterexample to the search for repeated factors, with nothing left to assume. -/
example : ∃ md, cudssForward exCudss 30 2 (some (1 / 100)) (List.range 2) (fun _ => 1) (diagCsr [1, 1]) (diagCsr [-1, -1]) =
      .ok [md, ⟨.pinf, List.replicate 2 0, List.replicate 2 0⟩] ∧ md.lam = .fin 1 := by
  have hv : (fun _ => 1 : Fin (List.range 2).length → ℝ) ≠ 0 := fun h => by simpa using congrFun h u0
  refine (C131_repeated_factor_missed exCudss_argsort exCudss_solve (by norm_num) hv ?_).2
  rw [gpuH, pair_gpuT, arnoldi_one hv]
  exact exCudss_eig

/-- One run that `C131_returned` speaks about. -/
example : ∃ out, cudssForward exCudss 30 2 (some (1 / 100)) (List.range 2) (fun _ => 1) (diagCsr [1, 1]) (diagCsr [-1, -1]) = .ok out ∧
    NumpyEig (gpuH (diagCsr [1, 1]) (diagCsr [-1, -1]) (List.range 2) (fun _ => 1) (cudssSteps (List.range 2).length 2 30))
      (exCudss.eig (gpuH (diagCsr [1, 1]) (diagCsr [-1, -1]) (List.range 2) (fun _ => 1) (cudssSteps (List.range 2).length 2 30))) := by
  have hv : (fun _ => 1 : Fin (List.range 2).length → ℝ) ≠ 0 := fun h => by simpa using congrFun h u0
  have he : NumpyEig (gpuH (diagCsr [1, 1]) (diagCsr [-1, -1]) (List.range 2) (fun _ => 1) 2)
      (exCudss.eig (gpuH (diagCsr [1, 1]) (diagCsr [-1, -1]) (List.range 2) (fun _ => 1) 2)) := by
    rw [gpuH, pair_gpuT, arnoldi_one hv]
    exact exCudss_eig
  obtain ⟨-, md, h, -⟩ := C131_repeated_factor_missed exCudss_argsort exCudss_solve (nm := 30) (t := 1 / 100) (by norm_num) hv he
  exact ⟨_, h, by rw [steps_two]; exact he⟩

example : ∃ out, matfreeBuckling exCudss 2 (some (1 / 100)) (List.range 2) (diagCsr [1, 1]) (diagCsr [-1, -1]) [(1, 0, fun _ => 1)] = .ok out := by
  obtain ⟨cs, -, -, -, -, h5, -, h7, h8⟩ := C131_matfree exCudss_argsort pair_ok 2 (some (1 / 100)) [(1, 0, fun _ => 1)]
  refine h8.resolve_right fun h => ?_
  obtain ⟨t, ht, hcs⟩ := h7.1 h
  obtain rfl := Option.some.inj ht
  have hall : ∀ c : Fin [((1 : ℝ), (0 : ℝ), fun _ : Fin (List.range 2).length => (1 : ℝ))].length,
      [((1 : ℝ), (0 : ℝ), fun _ : Fin (List.range 2).length => (1 : ℝ))].get c = (1, 0, fun _ => 1) := by
    intro c
    have : c = 0 := Subsingleton.elim (α := Fin 1) c 0
    rw [this]; rfl
  rcases hcs with rfl | ⟨c, rest, -, hlt⟩
  · have := (h5 0 (by rw [hall]; exact ritzValid_of_real rfl (by norm_num) (by norm_num [sparseTol])) (by simp)).1
    simp at this
  · rw [hall, pair_gpuT, one_mulVec, one_smul, sub_self, vnorm_zero] at hlt
    have := vnorm_nonneg (fun _ : Fin (List.range 2).length => (1 : ℝ))
    have : (0 : ℝ) ≤ 1 / 100 * (vnorm (fun _ : Fin (List.range 2).length => (1 : ℝ)) + 1 / 10 ^ 30) := by positivity
    exact absurd hlt (not_lt.2 this)
/-! A run without breakdown: two springs, the second softening twice as fast. -/

/-- A vector on the two free DOFs. -/
def vec2 (a b : ℝ) : Fin (List.range 2).length → ℝ := fun i => if i.1 = 0 then a else b

theorem vdot_vec2 (a b c d : ℝ) : vdot (vec2 a b) (vec2 c d) = a * c + b * d := by
  unfold vdot
  rw [sum_two]
  simp [vec2]

theorem soft_gpu : GpuProblem (diagCsr [1, 1]) (diagCsr [-1, -2]) (List.range 2) where
  ok := diag_bucklingOk (by simp) (by simp) (by simp)
  wfK := diagCsr_wf _
  wfG := diagCsr_wf _
  pattern := diag_mirror _ _
  colsK := by intro i hi; simpa [diagCsr] using hi
  rowsG := by intro i hi; simpa [diagCsr] using hi
  colsG := by intro i hi; simpa [diagCsr] using hi

theorem soft_T (a b : ℝ) : gpuT (diagCsr [1, 1]) (diagCsr [-1, -2]) (List.range 2) *ᵥ vec2 a b = vec2 a (2 * b) := by
  rw [gpuT, pair_mats.1, shiftInvert, half_sym (by simp), inv_one, one_mul, diagCsr_restrict _ 2 rfl, neg_mulVec]
  funext i
  rw [Pi.neg_apply, mulVec_diagonal]
  rcases two_cases i with rfl | rfl <;> simp [vec2]

theorem soft_arnoldi : rowV (arnoldi (gpuT (diagCsr [1, 1]) (diagCsr [-1, -2]) (List.range 2) *ᵥ ·) (vec2 3 4) 2).1 0 = vec2 (3/5) (4/5) ∧
    rowV (arnoldi (gpuT (diagCsr [1, 1]) (diagCsr [-1, -2]) (List.range 2) *ᵥ ·) (vec2 3 4) 2).1 1 = vec2 (-4/5) (3/5) ∧
    gpuH (diagCsr [1, 1]) (diagCsr [-1, -2]) (List.range 2) (vec2 3 4) 2 = !![41/25, 12/25; 12/25, 34/25] := by
  have hv0 : vec2 3 4 ≠ 0 := fun h => by simpa [vec2] using congrFun h u0
  obtain ⟨I, h0⟩ := arnoldi_inv (gpuT (diagCsr [1, 1]) (diagCsr [-1, -2]) (List.range 2) *ᵥ ·) hv0 2
  have hsm : ∀ t a b : ℝ, t • vec2 a b = vec2 (t * a) (t * b) := by
    intro t a b; funext i; simp only [vec2, Pi.smul_apply, smul_eq_mul]; split_ifs <;> rfl
  have hnorm : ∀ a b c : ℝ, 0 ≤ c → a * a + b * b = c * c → vnorm (vec2 a b) = c := by
    intro a b c hc h
    have h1 : vnorm (vec2 a b) * vnorm (vec2 a b) = c * c := by rw [← pow_two, ← vdot_self, vdot_vec2, h]
    nlinarith [vnorm_nonneg (vec2 a b), mul_self_nonneg (vnorm (vec2 a b) - c)]
  rw [hnorm 3 4 5 (by norm_num) (by norm_num), hsm] at h0
  norm_num at h0
  unfold gpuH
  set V := (arnoldi (gpuT (diagCsr [1, 1]) (diagCsr [-1, -2]) (List.range 2) *ᵥ ·) (vec2 3 4) 2).1
  set H := (arnoldi (gpuT (diagCsr [1, 1]) (diagCsr [-1, -2]) (List.range 2) *ᵥ ·) (vec2 3 4) 2).2
  have h00 : hess H 0 0 = 41/25 := by rw [I.proj 0 (by omega) 0 le_rfl, h0, soft_T, vdot_vec2]; norm_num
  obtain ⟨w, w1, w2, w3⟩ := I.next 0 (by omega)
  rw [Finset.sum_range_one, h00, h0, soft_T, hsm] at w1
  have hw : w = vec2 (-48/125) (36/125) := by
    funext i
    have := congrFun w1 i
    simp only [Pi.add_apply, vec2] at this ⊢
    split_ifs at this ⊢ <;> linarith
  rw [hw, hnorm _ _ (12/25) (by norm_num) (by norm_num)] at w2
  have h1 : rowV V 1 = vec2 (-4/5) (3/5) := by
    have h2 : rowV V (0 + 1) = nextRow w := w3
    rw [nextRow, hw, hnorm _ _ (12/25) (by norm_num) (by norm_num), if_pos (by norm_num), hsm] at h2
    rw [show rowV V 1 = rowV V (0 + 1) from rfl, h2]
    congr 1 <;> norm_num
  have h10 : hess H 1 0 = 12/25 := w2
  have h01 : hess H 0 1 = 12/25 := by rw [I.proj 1 (by omega) 0 (by omega), h0, h1, soft_T, vdot_vec2]; norm_num
  have h11 : hess H 1 1 = 34/25 := by rw [I.proj 1 (by omega) 1 le_rfl, h1, soft_T, vdot_vec2]; norm_num
  refine ⟨h0, h1, ?_⟩
  ext i j
  fin_cases i <;> fin_cases j <;> simp [hessMatrix, h00, h10, h01, h11]

/-- The same routines, with the pairs of the matrix of this run. -/
noncomputable def exCudss2 : CudssOps :=
  { exCudss with
    eig := fun {m} _ => if m = 2 then [(1, 0, fun i => if i.1 = 0 then 3/5 else -4/5), (2, 0, fun i => if i.1 = 0 then 4/5 else 3/5)] else [] }

theorem exCudss2_eig : NumpyEig !![41/25, 12/25; 12/25, 34/25] (exCudss2.eig (!![41/25, 12/25; 12/25, 34/25] : Matrix (Fin 2) (Fin 2) ℝ)) := by
  have hl : exCudss2.eig (!![41/25, 12/25; 12/25, 34/25] : Matrix (Fin 2) (Fin 2) ℝ) = [(1, 0, ![3/5, -4/5]), (2, 0, ![4/5, 3/5])] := by
    have h1 : (fun i : Fin 2 => if i.1 = 0 then (3/5 : ℝ) else -4/5) = ![3/5, -4/5] := by funext i; fin_cases i <;> rfl
    have h2 : (fun i : Fin 2 => if i.1 = 0 then (4/5 : ℝ) else 3/5) = ![4/5, 3/5] := by funext i; fin_cases i <;> rfl
    simp only [exCudss2, if_true, h1, h2]
  rw [hl]
  constructor
  · intro e he
    simp only [List.mem_cons, List.not_mem_nil, or_false] at he
    rcases he with rfl | rfl
    · exact ⟨0, .inl fun h => by simpa using congrFun h 0, fun _ => rfl, by funext i; fin_cases i <;> norm_num [Matrix.mulVec, dotProduct, Fin.sum_univ_two], by simp⟩
    · exact ⟨0, .inl fun h => by simpa using congrFun h 1, fun _ => rfl, by funext i; fin_cases i <;> norm_num [Matrix.mulVec, dotProduct, Fin.sum_univ_two], by simp⟩
  · intro μ y hy h
    have e1 := congrFun h 0
    have e2 := congrFun h 1
    simp [Matrix.mulVec, dotProduct, Fin.sum_univ_two] at e1 e2
    have f1 : (μ - 1) * (3 * y 0 - 4 * y 1) = 0 := by linarith
    have f2 : (μ - 2) * (4 * y 0 + 3 * y 1) = 0 := by linarith
    rcases mul_eq_zero.1 f1 with g | g
    · exact ⟨_, List.mem_cons_self, by simp only; linarith, rfl⟩
    · rcases mul_eq_zero.1 f2 with g2 | g2
      · exact ⟨_, List.mem_cons_of_mem _ List.mem_cons_self, by simp only; linarith, rfl⟩
      · have y0 : y 0 = 0 := by linarith
        have y1 : y 1 = 0 := by linarith
        exact absurd (funext fun i => by fin_cases i <;> simp [y0, y1]) hy
  · intro μ
    have hc : (!![41/25, 12/25; 12/25, 34/25] : Matrix (Fin 2) (Fin 2) ℝ).charpoly = (Polynomial.X - Polynomial.C 1) * (Polynomial.X - Polynomial.C 2) := by
      have ht : (!![41/25, 12/25; 12/25, 34/25] : Matrix (Fin 2) (Fin 2) ℝ).trace = 1 + 2 := by norm_num [Matrix.trace_fin_two]
      have hd : (!![41/25, 12/25; 12/25, 34/25] : Matrix (Fin 2) (Fin 2) ℝ).det = 1 * 2 := by norm_num [Matrix.det_fin_two]
      rw [Matrix.charpoly_fin_two, ht, hd, Polynomial.C_add, Polynomial.C_mul]
      ring
    rw [hc, Polynomial.rootMultiplicity_mul (mul_ne_zero (Polynomial.X_sub_C_ne_zero _) (Polynomial.X_sub_C_ne_zero _))]
    classical
    rw [Polynomial.rootMultiplicity_X_sub_C, Polynomial.rootMultiplicity_X_sub_C]
    by_cases h1 : μ = 1
    · subst h1; simp
    · by_cases h0 : μ = 2
      · subst h0; simp
      · simp [h1, h0, Ne.symm h1, Ne.symm h0]

/-- The hypotheses of `C131_exact_partial` are met by this run. -/
example : ArgsortOk exCudss2 ∧ GpuProblem (diagCsr [1, 1]) (diagCsr [-1, -2]) (List.range 2) ∧
    (∀ b, restrict (diagCsr [1, 1]) (List.range 2) *ᵥ exCudss2.solve (restrict (diagCsr [1, 1]) (List.range 2)) b = b) ∧
    vec2 3 4 ≠ 0 ∧ cudssSteps (List.range 2).length 2 30 = (List.range 2).length ∧
    (∀ i < (List.range 2).length, rowV (arnoldi (gpuT (diagCsr [1, 1]) (diagCsr [-1, -2]) (List.range 2) *ᵥ ·) (vec2 3 4) 2).1 i ≠ 0) ∧
    NumpyEig (gpuH (diagCsr [1, 1]) (diagCsr [-1, -2]) (List.range 2) (vec2 3 4) 2)
      (exCudss2.eig (gpuH (diagCsr [1, 1]) (diagCsr [-1, -2]) (List.range 2) (vec2 3 4) 2)) ∧
    ∃ out, cudssForward exCudss2 30 2 none (List.range 2) (vec2 3 4) (diagCsr [1, 1]) (diagCsr [-1, -2]) = .ok out := by
  obtain ⟨r0, r1, hH⟩ := soft_arnoldi
  refine ⟨exCudss_argsort, soft_gpu, exCudss_solve, fun h => by simpa [vec2] using congrFun h u0, rfl, ?_, by rw [hH]; exact exCudss2_eig, ?_⟩
  · intro i hi
    have : i < 2 := by simpa using hi
    interval_cases i
    · rw [r0]; exact fun h => by simpa [vec2] using congrFun h u0
    · rw [r1]; exact fun h => by simpa [vec2] using congrFun h u0
  · unfold cudssForward
    simp only [steps_two]
    rw [if_neg (by omega)]
    exact ⟨_, rfl⟩
/-- C131: the number of Krylov steps is the one asked for, or more when many modes are wanted (twice their number and ten),
and never more than there are free unknowns. -/
theorem C131_steps (nf mo nm : ℕ) : cudssSteps nf mo nm ≤ nf ∧ min nf nm ≤ cudssSteps nf mo nm ∧
    min nf (2 * mo + 10) ≤ cudssSteps nf mo nm ∧
    (cudssSteps nf mo nm = nf ∨ cudssSteps nf mo nm = nm ∨ cudssSteps nf mo nm = 2 * mo + 10) := by
  unfold cudssSteps
  omega

example : cudssSteps 1000 6 20 = 22 := rfl

end Verif.Props
