import Verif.Model.Arr
import Mathlib.Tactic.Ring
import Mathlib.Tactic.Linarith
import Mathlib.Data.List.Nodup
import Mathlib.Data.List.Range

/-! # Facts about the array primitives (proof machinery) -/

namespace Verif.Model

variable {R : Type*} [AddCommMonoid R]

section gather
variable {α : Type*}

@[simp] theorem gather_length (d : α) (arr : List α) (idx : List ℕ) :
    (gather d arr idx).length = idx.length := by simp [gather]

theorem gather_range (d : α) (arr : List α) :
    gather d arr (List.range arr.length) = arr := by
  apply List.ext_getElem
  · simp
  · intro i h1 h2
    simp [gather, List.getElem?_eq_getElem h2]

theorem gather_perm_range (d : α) (arr : List α) {p : List ℕ}
    (hp : p.Perm (List.range arr.length)) : (gather d arr p).Perm arr := by
  have := hp.map (fun i => arr.getD i d)
  have h2 := gather_range d arr
  unfold gather at *
  rw [h2] at this
  exact this

theorem gather_getD (d : α) (arr : List α) (idx : List ℕ) (k : ℕ) (hk : k < idx.length) :
    (gather d arr idx).getD k d = arr.getD (idx.getD k 0) d := by
  simp [gather, List.getD_eq_getElem?_getD, List.getElem?_map, List.getElem?_eq_getElem hk]

/-- Gathering ids and values with the same permutation permutes the pairs. -/
theorem gather_zip_perm (d : α) (ids : List ℕ) (vals : List α) {p : List ℕ}
    (hl : vals.length = ids.length) (hp : p.Perm (List.range ids.length)) :
    ((gather 0 ids p).zip (gather d vals p)).Perm (ids.zip vals) := by
  have e : (gather 0 ids p).zip (gather d vals p) = gather (0, d) (ids.zip vals) p := by
    unfold gather
    rw [List.zip_map']
    apply List.map_congr_left
    intro i hi
    have hi' : i < ids.length := by simpa using hp.subset hi
    have hi2 : i < vals.length := by omega
    simp [List.getD_eq_getElem?_getD, hi', hi2]
  rw [e]
  apply gather_perm_range
  rw [List.length_zip, hl, Nat.min_self]
  exact hp

end gather

section argsort

theorem argsort_perm (keys : List ℕ) : (argsort keys).Perm (List.range keys.length) :=
  List.perm_insertionSort _ _

@[simp] theorem argsort_length (keys : List ℕ) : (argsort keys).length = keys.length := by
  simp [argsort]

theorem argsort_nodup (keys : List ℕ) : (argsort keys).Nodup :=
  (argsort_perm keys).nodup_iff.mpr List.nodup_range

theorem argsort_mem {keys : List ℕ} {i : ℕ} : i ∈ argsort keys ↔ i < keys.length := by
  rw [(argsort_perm keys).mem_iff, List.mem_range]

theorem argsort_pairwise_le (keys : List ℕ) :
    (argsort keys).Pairwise (fun i j => keys.getD i 0 ≤ keys.getD j 0) := by
  have : Std.Total (fun i j => keys.getD i 0 ≤ keys.getD j 0) := ⟨fun a b => le_total _ _⟩
  have : IsTrans ℕ (fun i j => keys.getD i 0 ≤ keys.getD j 0) := ⟨fun a b c => le_trans⟩
  exact List.pairwise_insertionSort _ _

/-- `argsort` is stable: positions come in lexicographic (key, position) order. -/
theorem argsort_pairwise_lex (keys : List ℕ) :
    (argsort keys).Pairwise
      (fun i j => keys.getD i 0 < keys.getD j 0 ∨ (keys.getD i 0 = keys.getD j 0 ∧ i < j)) := by
  have : Std.Total (fun i j => keys.getD i 0 ≤ keys.getD j 0) := ⟨fun a b => le_total _ _⟩
  have : IsTrans ℕ (fun i j => keys.getD i 0 ≤ keys.getD j 0) := ⟨fun a b c => le_trans⟩
  have hle := argsort_pairwise_le keys
  have hnd := argsort_nodup keys
  rw [List.pairwise_iff_forall_sublist] at *
  intro i j hij
  have h1 := hle hij
  rcases Nat.lt_or_eq_of_le h1 with h | h
  · exact Or.inl h
  · right
    refine ⟨h, ?_⟩
    have hne : i ≠ j := by
      intro e; subst e
      exact (List.nodup_iff_sublist.mp hnd i) hij
    rcases Nat.lt_or_gt_of_ne hne with h2 | h2
    · exact h2
    · exfalso
      have hi : i < keys.length := argsort_mem.mp (hij.subset (by simp))
      have hsub : [j, i].Sublist (List.range keys.length) := by
        have hpw := List.pairwise_lt_range (n := keys.length)
        have : [j, i].Subperm (List.range keys.length) := by
          apply List.subperm_of_subset
          · simp [hne.symm]
          · intro x hx
            simp at hx
            rcases hx with rfl | rfl <;> simp <;> omega
        refine List.sublist_of_subperm_of_pairwise (r := (· < ·)) this ?_ hpw
        simp [h2]
      have hs2 : [j, i].Sublist (argsort keys) :=
        List.pair_sublist_insertionSort (by exact h.symm.le) hsub
      -- [i,j] and [j,i] both sublists of a nodup list
      have key : ∀ l : List ℕ, l.Nodup → [i, j].Sublist l → [j, i].Sublist l → False := by
        intro l
        induction l with
        | nil => intro _ h _; simp at h
        | cons x xs ih =>
          intro hn ha hb
          rw [List.nodup_cons] at hn
          rw [List.cons_sublist_cons'] at ha hb
          rcases ha with ha | ⟨rfl, ha⟩
          · rcases hb with hb | ⟨rfl, hb⟩
            · exact ih hn.2 ha hb
            · exact hn.1 (ha.subset (by simp))
          · rcases hb with hb | ⟨e, hb⟩
            · exact hn.1 (hb.subset (by simp))
            · exact hne e.symm
      exact key _ hnd hij hs2

theorem gather_argsort_sorted (keys : List ℕ) :
    (gather 0 keys (argsort keys)).Pairwise (· ≤ ·) := by
  unfold gather
  rw [List.pairwise_map]
  exact argsort_pairwise_le keys

theorem gather_argsort_perm (keys : List ℕ) : (gather 0 keys (argsort keys)).Perm keys :=
  gather_perm_range 0 keys (argsort_perm keys)

end argsort

section segsum

theorem sum_map_ite_single {α : Type*} [DecidableEq α] {l : List α} (hl : l.Nodup) {a : α}
    (ha : a ∈ l) (f : α → R) : (l.map (fun r => if r = a then f r else 0)).sum = f a := by
  induction l with
  | nil => simp at ha
  | cons x xs ih =>
    rw [List.nodup_cons] at hl
    rw [List.map_cons, List.sum_cons]
    by_cases h : x = a
    · subst h
      have : (xs.map (fun r => if r = x then f r else 0)) = xs.map (fun _ => 0) := by
        apply List.map_congr_left
        intro r hr
        rw [if_neg]; rintro rfl; exact hl.1 hr
      rw [this]; simp
    · rw [if_neg h, zero_add]
      exact ih hl.2 ((List.mem_cons.mp ha).resolve_left (Ne.symm h))

theorem sum_map_ite_none {α : Type*} [DecidableEq α] {l : List α} {a : α}
    (ha : a ∉ l) (f : α → R) : (l.map (fun r => if r = a then f r else 0)).sum = 0 := by
  have : (l.map (fun r => if r = a then f r else 0)) = l.map (fun _ => 0) := by
    apply List.map_congr_left
    intro r hr
    rw [if_neg]; rintro rfl; exact ha hr
  rw [this]; simp

theorem segSumAt_perm {ps qs : List (ℕ × R)} (h : ps.Perm qs) (s : ℕ) :
    segSumAt ps s = segSumAt qs s :=
  ((h.filter _).map _).sum_eq

@[simp] theorem segSumAt_nil (s : ℕ) : segSumAt ([] : List (ℕ × R)) s = 0 := by simp [segSumAt]

theorem segSumAt_cons (p : ℕ × R) (ps : List (ℕ × R)) (s : ℕ) :
    segSumAt (p :: ps) s = (if p.1 = s then p.2 else 0) + segSumAt ps s := by
  by_cases h : p.1 = s <;> simp [segSumAt, h]

theorem segSumAt_append (ps qs : List (ℕ × R)) (s : ℕ) :
    segSumAt (ps ++ qs) s = segSumAt ps s + segSumAt qs s := by
  simp [segSumAt]

theorem segSumAt_eq_sum (ps : List (ℕ × R)) (s : ℕ) :
    segSumAt ps s = (ps.map (fun p => if p.1 = s then p.2 else 0)).sum := by
  induction ps with
  | nil => simp
  | cons p ps ih => rw [segSumAt_cons, ih]; simp

theorem segSumAt_flatten (pss : List (List (ℕ × R))) (s : ℕ) :
    segSumAt pss.flatten s = (pss.map (fun ps => segSumAt ps s)).sum := by
  induction pss with
  | nil => simp
  | cons p ps ih => simp [segSumAt_append, ih]

@[simp] theorem segmentSum_length (vals : List R) (ids : List ℕ) (num : ℕ) :
    (segmentSum vals ids num).length = num := by simp [segmentSum]

theorem segmentSum_getD (vals : List R) (ids : List ℕ) (num s : ℕ) (hs : s < num) :
    (segmentSum vals ids num).getD s 0 = segSumAt (ids.zip vals) s := by
  simp [segmentSum, List.getD_eq_getElem?_getD, hs]

/-- Reordering ids and values by one permutation does not change `segment_sum`. -/
theorem segmentSum_gather (ids : List ℕ) (vals : List R) {p : List ℕ} (num : ℕ)
    (hl : vals.length = ids.length) (hp : p.Perm (List.range ids.length)) :
    segmentSum (gather 0 vals p) (gather 0 ids p) num = segmentSum vals ids num := by
  unfold segmentSum
  apply List.map_congr_left
  intro s _
  exact segSumAt_perm (gather_zip_perm 0 ids vals hl hp) s

end segsum

end Verif.Model
