import Verif.Model.Periodic
import Verif.Props.Solve
import Mathlib.Data.Finset.Card
import Mathlib.Tactic.Ring
import Mathlib.Tactic.Linarith

/-! Facts about prolongation matrices. -/

set_option linter.unusedSectionVars false

namespace Verif.Props
open Verif.Model
open scoped BigOperators

/-- `P` copies reduced unknown `col i` to DOF `i`: one unit entry per row, all columns in range. -/
structure Copies {R : Type*} [One R] (P : Coo R) (N M : ℕ) (col : ℕ → ℕ) : Prop where
  rows : P.rows = N
  cols : P.cols = M
  entries : P.entries = (List.range N).map (fun i => (i, (col i : ℤ), 1))
  lt : ∀ i < N, col i < M

theorem filter_range_beq (N i : ℕ) :
    (List.range N).filter (fun j => j == i) = if i < N then [i] else [] := by
  induction N with
  | zero => simp
  | succ N ih =>
    rw [List.range_succ, List.filter_append, ih]
    by_cases h : i < N
    · rw [if_pos h, if_pos (by omega), List.filter_cons_of_neg (by simp; omega)]; simp
    · rw [if_neg h]
      by_cases h2 : N = i
      · subst h2; rw [if_pos (by omega)]; simp
      · rw [if_neg (by omega), List.filter_cons_of_neg (by simpa using h2)]; simp

section
variable {R : Type*} [CommRing R]

theorem Copies.matvec_length {P : Coo R} {N M : ℕ} {col : ℕ → ℕ} (h : Copies P N M col) (v : List R) :
    (P.matvec v).length = N := by
  simp [Coo.matvec, h.rows]

theorem Copies.matvec_getD {P : Coo R} {N M : ℕ} {col : ℕ → ℕ} (h : Copies P N M col) (v : List R)
    (i : ℕ) (hi : i < N) : (P.matvec v).getD i 0 = v.getD (col i) 0 := by
  unfold Coo.matvec
  rw [List.getD_eq_getElem _ _ (by simpa [h.rows] using hi), List.getElem_map, List.getElem_range,
    h.entries, List.filter_map]
  have : ((List.range N).filter ((fun e : ℕ × ℤ × R => e.1 == i) ∘ fun i => (i, (col i : ℤ), 1)))
      = [i] := by
    change (List.range N).filter (fun j => j == i) = _
    rw [filter_range_beq, if_pos hi]
  rw [this]
  simp

theorem Copies.rmatvec_length {P : Coo R} {N M : ℕ} {col : ℕ → ℕ} (h : Copies P N M col) (w : List R) :
    (P.rmatvec w).length = M := by
  simp [Coo.rmatvec, h.cols]

theorem Copies.rmatvec_getD {P : Coo R} {N M : ℕ} {col : ℕ → ℕ} (h : Copies P N M col) (w : List R)
    (c : ℕ) (hc : c < M) :
    (P.rmatvec w).getD c 0 = ∑ i ∈ Finset.range N, if col i = c then w.getD i 0 else 0 := by
  unfold Coo.rmatvec
  rw [List.getD_eq_getElem _ _ (by simpa [h.cols] using hc), List.getElem_map, List.getElem_range,
    h.entries]
  clear h
  induction N with
  | zero => simp
  | succ N ih =>
    rw [List.range_succ, List.map_append, List.filter_append, List.map_append, List.sum_append, ih,
      Finset.sum_range_succ]
    congr 1
    by_cases hcn : col N = c
    · simp [hcn]
    · have : ((col N : ℤ) == (c : ℤ)) = false := by simpa using hcn
      simp [hcn]

end

/-! ## Numbering -/

theorem numberFree_length (k : ℤ) (l : List ℤ) : (numberFree k l).length = l.length := by
  induction l generalizing k with
  | nil => rfl
  | cons x xs ih => unfold numberFree; split <;> simp [ih]

theorem numberFree_getD (k : ℤ) (l : List ℤ) (i : ℕ) (hi : i < l.length) :
    (numberFree k l).getD i 0 = if l.getD i 0 = 1 then k + ((l.take i).count 1 : ℤ) else l.getD i 0 := by
  induction l generalizing k i with
  | nil => simp at hi
  | cons x xs ih =>
    unfold numberFree
    cases i with
    | zero => by_cases h : x = 1 <;> simp [h]
    | succ i =>
      have hi' : i < xs.length := by simpa using hi
      by_cases h : x = 1
      · rw [if_pos h, List.getD_cons_succ, ih _ i hi', List.getD_cons_succ, List.take_succ_cons, h]
        split
        · rw [List.count_cons_self]; push_cast; ring
        · rfl
      · rw [if_neg h, List.getD_cons_succ, ih _ i hi', List.getD_cons_succ, List.take_succ_cons,
          List.count_cons_of_ne (by simpa using h)]

/-- The DOFs not in `B` below `i`. -/
def freeBelow (B : List ℕ) (i : ℕ) : List ℕ := (List.range i).filter (fun j => decide (j ∉ B))

theorem freeBelow_getElem (B : List ℕ) (N i : ℕ) (hi : i < N) (hB : i ∉ B) :
    (freeBelow B N)[(freeBelow B i).length]? = some i := by
  have : List.range N = List.range i ++ ([i] ++ (List.range (N - i - 1)).map (i + 1 + ·)) := by
    rw [show N = i + (1 + (N - i - 1)) by omega, List.range_add, List.range_add]
    congr 1
    simp [Function.comp_def]
    intro a _; omega
  unfold freeBelow
  rw [this, List.filter_append, List.getElem?_append_right (le_refl _), Nat.sub_self, List.filter_append]
  simp [hB]

theorem freeBelow_mono_length (B : List ℕ) (N i : ℕ) (hi : i < N) (hB : i ∉ B) :
    (freeBelow B i).length < (freeBelow B N).length := by
  have := freeBelow_getElem B N i hi hB
  exact (List.getElem?_eq_some_iff.mp this).1

theorem freeBelow_nodup (B : List ℕ) (N : ℕ) : (freeBelow B N).Nodup := List.nodup_range.filter _

/-- The `c`-th free DOF has `c` free DOFs before it. -/
theorem freeBelow_rank (B : List ℕ) (N c : ℕ) (hc : c < (freeBelow B N).length) :
    (freeBelow B (freeBelow B N)[c]).length = c := by
  have hm := List.getElem_mem hc
  have hm' := hm
  unfold freeBelow at hm'
  rw [List.mem_filter, List.mem_range, decide_eq_true_eq] at hm'
  have h1 := freeBelow_getElem B N _ hm'.1 hm'.2
  obtain ⟨h2, h3⟩ := List.getElem?_eq_some_iff.mp h1
  exact ((freeBelow_nodup B N).getElem_inj_iff).mp h3

/-! ## The matrix from DOF pairs -/

theorem map0_getD_not_mem (N : ℕ) (A B : List ℕ) (i : ℕ) (hi : i < N) (hB : i ∉ B) :
    (scatterSet (List.replicate N (1 : ℤ)) B (A.map (fun a : ℕ => -((a : ℤ) + 1)))).getD i 0 = 1 := by
  rw [scatterSet_getD_not_mem _ _ _ _ _ hB, List.getD_eq_getElem _ _ (by simpa using hi)]
  simp

theorem scatterSet_mem {α : Type*} (arr : List α) (idx : List ℕ) (vals : List α) (d : α) (i : ℕ)
    (hlen : idx.length = vals.length) (hi : i < arr.length) (hm : i ∈ idx) :
    (scatterSet arr idx vals).getD i d ∈ vals := by
  unfold scatterSet
  induction idx generalizing arr vals with
  | nil => simp at hm
  | cons a idx ih =>
    cases vals with
    | nil => simp at hlen
    | cons v vals =>
      rw [List.zip_cons_cons, List.foldl_cons]
      by_cases h : i ∈ idx
      · exact List.mem_cons_of_mem _ (ih _ vals (by simpa using hlen) (by simpa using hi) h)
      · have hia : i = a := (List.mem_cons.mp hm).resolve_right h
        have := scatterSet_getD_not_mem d (arr.set a v) idx vals i h
        unfold scatterSet at this
        rw [this, hia, List.getD_eq_getElem _ _ (by simpa [← hia] using hi)]
        simp

theorem count_take_eq_freeBelow (N : ℕ) (A B : List ℕ) (hl : A.length = B.length) (i : ℕ) (hi : i ≤ N) :
    ((scatterSet (List.replicate N (1 : ℤ)) B (A.map (fun a : ℕ => -((a : ℤ) + 1)))).take i).count 1
      = (freeBelow B i).length := by
  set l := scatterSet (List.replicate N (1 : ℤ)) B (A.map (fun a : ℕ => -((a : ℤ) + 1))) with hldef
  have hlen : l.length = N := by simp [hldef, scatterSet_length]
  have key : ∀ j < N, l.getD j 0 = 1 ↔ j ∉ B := by
    intro j hj
    by_cases hB : j ∈ B
    · have := scatterSet_mem (List.replicate N (1 : ℤ)) B (A.map (fun a : ℕ => -((a : ℤ) + 1))) 0 j
        (by simp [hl]) (by simpa using hj) hB
      rw [← hldef, List.mem_map] at this
      obtain ⟨a, _, ha⟩ := this
      rw [← ha]
      constructor
      · intro h; omega
      · intro h; exact absurd hB h
    · exact ⟨fun _ => hB, fun _ => map0_getD_not_mem N A B j hj hB⟩
  induction i with
  | zero => simp [freeBelow]
  | succ i ih =>
    have hi' : i < l.length := by omega
    rw [List.take_succ_eq_append_getElem hi', List.count_append, ih (by omega)]
    unfold freeBelow
    rw [List.range_succ, List.filter_append, List.length_append]
    congr 1
    have hk := key i (by omega)
    rw [List.getD_eq_getElem _ _ hi'] at hk
    by_cases hB : i ∈ B
    · rw [List.filter_cons_of_neg (by simpa using hB)]
      change List.count 1 [l[i]] = 0
      exact List.count_eq_zero.mpr (by simpa [eq_comm] using fun h => hk.mp h hB)
    · rw [List.filter_cons_of_pos (by simpa using hB), hk.mpr hB]
      simp

theorem nodup_of_freeBelow (N : ℕ) (B : List ℕ) (hB : ∀ b ∈ B, b < N)
    (h : ((freeBelow B N).length : ℤ) = N - B.length) : B.Nodup := by
  have h1 : (freeBelow B N).length = N - B.toFinset.card := by
    have hperm : (freeBelow B N).toFinset = Finset.range N \ B.toFinset := by
      ext x; simp [freeBelow]
    rw [← List.toFinset_card_of_nodup (freeBelow_nodup B N), hperm, Finset.card_sdiff_of_subset,
      Finset.card_range]
    intro x hx
    simp only [List.mem_toFinset] at hx
    exact Finset.mem_range.mpr (hB x hx)
  have h2 : B.toFinset.card ≤ N := by
    have : B.toFinset ⊆ Finset.range N := fun x hx => Finset.mem_range.mpr (hB x (by simpa using hx))
    simpa using Finset.card_le_card this
  have h3 : B.toFinset.card = B.length := by omega
  have := (Multiset.toFinset_card_eq_card_iff_nodup (m := (B : Multiset ℕ))).mp (by simpa using h3)
  simpa using this

/-- The matrix built from disjoint masters and slaves. -/
theorem prolongationOf_spec {R : Type*} [CommRing R] (N : ℕ) (A B : List ℕ) (hl : A.length = B.length)
    (hdisj : ∀ a ∈ A, a ∉ B) (P : Coo R) (h : prolongationOf N A B = .ok P) :
    B.Nodup ∧ (∀ b ∈ B, b < N) ∧ (∀ a ∈ A, a < N) ∧
    ∃ col, Copies P N (N - B.length) col ∧ (freeBelow B N).length = N - B.length ∧
      (∀ i < N, i ∉ B → col i = (freeBelow B i).length) ∧
      ∀ k < A.length, col (B.getD k 0) = col (A.getD k 0) := by
  unfold prolongationOf at h
  by_cases h1 : (B.any fun b => decide (N ≤ b)) = true
  · rw [if_pos h1] at h; simp at h
  rw [if_neg h1] at h
  have hBlt : ∀ b ∈ B, b < N := by
    intro b hb
    simp only [List.any_eq_true, decide_eq_true_eq, not_exists, not_and, not_le] at h1
    exact h1 b hb
  simp only at h
  set map0 := scatterSet (List.replicate N (1 : ℤ)) B (A.map (fun a : ℕ => -((a : ℤ) + 1))) with hm0
  by_cases h2 : ((map0.count 1 : ℕ) : ℤ) ≠ (N : ℤ) - B.length
  · rw [if_pos h2] at h; simp at h
  rw [if_neg h2] at h
  by_cases h3 : (A.any fun a => decide (N ≤ a)) = true
  · rw [if_pos h3] at h; simp at h
  rw [if_neg h3] at h
  have hAlt : ∀ a ∈ A, a < N := by
    intro b hb
    simp only [List.any_eq_true, decide_eq_true_eq, not_exists, not_and, not_le] at h3
    exact h3 b hb
  have hm0len : map0.length = N := by simp [hm0, scatterSet_length]
  have hcount : map0.count 1 = (freeBelow B N).length := by
    have := count_take_eq_freeBelow N A B hl N (le_refl _)
    rwa [← hm0, List.take_of_length_le (by omega)] at this
  have h2' : ((freeBelow B N).length : ℤ) = N - B.length := by
    rw [← hcount]; exact not_not.mp h2
  have hnd := nodup_of_freeBelow N B hBlt h2'
  have hfree : (freeBelow B N).length = N - B.length := by omega
  refine ⟨hnd, hBlt, hAlt, ?_⟩
  -- the numbered map
  have hfreeval : ∀ i < N, i ∉ B → (numberFree 0 map0).getD i 0 = ((freeBelow B i).length : ℤ) := by
    intro i hi hB
    rw [numberFree_getD _ _ _ (by omega), map0_getD_not_mem N A B i hi hB, if_pos rfl, zero_add,
      count_take_eq_freeBelow N A B hl i hi.le]
  have hslaveval : ∀ k < A.length, (numberFree 0 map0).getD (B.getD k 0) 0 = -((A.getD k 0 : ℤ) + 1) := by
    intro k hk
    have hkB : k < B.length := hl ▸ hk
    have hb : B.getD k 0 ∈ B := by rw [List.getD_eq_getElem _ _ hkB]; exact List.getElem_mem hkB
    have hv : map0.getD (B.getD k 0) 0 = -((A.getD k 0 : ℤ) + 1) := by
      rw [hm0, scatterSet_getD_nodup 0 _ _ _ hnd k hkB (by simpa using hk)
        (by simpa using hBlt _ hb)]
      rw [List.getD_eq_getElem _ _ (by simpa using hk), List.getElem_map, List.getD_eq_getElem _ _ hk]
    rw [numberFree_getD _ _ _ (by rw [hm0len]; exact hBlt _ hb), hv, if_neg (by omega)]
  let J : ℕ → ℤ := fun i => (let m := (numberFree 0 map0).getD i 0;
    if m < 0 then (numberFree 0 map0).getD (-m - 1).toNat 0 else m)
  have hJfree : ∀ i < N, i ∉ B → J i = ((freeBelow B i).length : ℤ) := by
    intro i hi hB
    simp only [J]
    rw [hfreeval i hi hB, if_neg (by omega)]
  have hJslave : ∀ k < A.length, J (B.getD k 0) = J (A.getD k 0) := by
    intro k hk
    have ha : A.getD k 0 ∈ A := by rw [List.getD_eq_getElem _ _ hk]; exact List.getElem_mem hk
    rw [hJfree _ (hAlt _ ha) (hdisj _ ha)]
    simp only [J]
    rw [hslaveval k hk, if_pos (by omega)]
    rw [show (-(-((A.getD k 0 : ℤ) + 1)) - 1).toNat = A.getD k 0 by omega]
    exact hfreeval _ (hAlt _ ha) (hdisj _ ha)
  have hJrange : ∀ i < N, 0 ≤ J i ∧ J i < ((N - B.length : ℕ) : ℤ) := by
    intro i hi
    by_cases hB : i ∈ B
    · obtain ⟨k, hk, rfl⟩ := List.mem_iff_getElem.mp hB
      have hkA : k < A.length := hl ▸ hk
      have ha : A.getD k 0 ∈ A := by rw [List.getD_eq_getElem _ _ hkA]; exact List.getElem_mem hkA
      have := hJslave k hkA
      rw [List.getD_eq_getElem _ _ hk] at this
      rw [this, hJfree _ (hAlt _ ha) (hdisj _ ha)]
      have := freeBelow_mono_length B N _ (hAlt _ ha) (hdisj _ ha)
      omega
    · rw [hJfree i hi hB]
      have := freeBelow_mono_length B N i hi hB
      omega
  refine ⟨fun i => (J i).toNat, ?_, hfree, ?_, ?_⟩
  · have hP := (Except.ok.inj h).symm
    subst hP
    refine ⟨rfl, by simp only; omega, ?_, ?_⟩
    · apply List.map_congr_left
      intro i hi
      have := hJrange i (by simpa using hi)
      change (i, J i, (1 : R)) = _
      rw [show ((J i).toNat : ℤ) = J i by omega]
    · intro i hi
      have := hJrange i hi
      omega
  · intro i hi hB
    simp only
    rw [hJfree i hi hB]; simp
  · intro k hk
    simp only
    rw [hJslave k hk]

end Verif.Props
