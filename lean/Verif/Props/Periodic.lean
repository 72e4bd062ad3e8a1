import Verif.Lemmas.Periodic
import Verif.Spec.Periodic
import Mathlib.Data.Set.Card
import Mathlib.Tactic.NormNum

/-!
# Periodic prolongation (C22), cyclic prolongation (C23)
-/

set_option linter.unusedSectionVars false

namespace Verif.Props
open Verif.Model
open scoped BigOperators

section
variable {Pt : Type*} {R : Type*} [CommRing R]

theorem forCollect_ok {α β ε : Type*} (f : α → Except ε β) (l : List α) (r : List β)
    (h : forCollect f l = .ok r) : List.Forall₂ (fun a b => f a = .ok b) l r := by
  induction l generalizing r with
  | nil => simp only [forCollect, Except.ok.injEq] at h; subst h; exact .nil
  | cons x xs ih =>
    simp only [forCollect] at h
    cases hx : f x with
    | error e => rw [hx] at h; simp at h
    | ok y =>
      rw [hx] at h
      cases hxs : forCollect f xs with
      | error e => rw [hxs] at h; simp at h
      | ok ys =>
        rw [hxs] at h
        simp only [Except.ok.injEq] at h
        subst h
        exact .cons hx (ih ys hxs)

theorem flatten_singletons {α β : Type*} (f : α → List β) (l : List α) (h : ∀ a ∈ l, (f a).length = 1) :
    ((l.map f).flatten).length = l.length ∧
    ∀ {γ : Type} (g : α → γ) (i : γ) (j : β),
      (i, j) ∈ (l.map g).zip (l.map f).flatten ↔ ∃ a ∈ l, g a = i ∧ j ∈ f a := by
  induction l with
  | nil => simp
  | cons a l ih =>
    obtain ⟨b, hb⟩ := List.length_eq_one_iff.mp (h a (by simp))
    obtain ⟨h1, h2⟩ := ih (fun a ha => h a (List.mem_cons_of_mem _ ha))
    refine ⟨by rw [List.map_cons, List.flatten_cons, hb]; simp [h1], fun g i j => ?_⟩
    rw [List.map_cons, List.map_cons, List.flatten_cons, hb, List.singleton_append, List.zip_cons_cons,
      List.mem_cons, h2, Prod.mk.injEq]
    constructor
    · rintro (⟨rfl, rfl⟩ | ⟨c, hc, e, hj⟩)
      · exact ⟨a, by simp, rfl, by simp [hb]⟩
      · exact ⟨c, List.mem_cons_of_mem _ hc, e, hj⟩
    · rintro ⟨c, hc, e, hj⟩
      rcases List.mem_cons.mp hc with rfl | hc
      · rw [hb] at hj; exact Or.inl ⟨e.symm, by simpa using hj⟩
      · exact Or.inr ⟨c, hc, e, hj⟩

/-- An accepted pairing lists exactly the paired nodes, one slave per master. -/
theorem pairNodes_ok (near : Pt → Pt → Bool) (points : List Pt) (bc : PeriodicPairing Pt)
    (q : List ℕ × List ℕ) (h : pairNodes near points bc = .ok q) :
    q.1.length = q.2.length ∧ ∀ i j, (i, j) ∈ q.1.zip q.2 ↔ Spec.PairedNodes near points bc i j := by
  unfold pairNodes at h
  simp only at h
  set nodesA := points.zipIdx.filter (fun q => bc.master q.1) with hA
  set nodesB := points.zipIdx.filter (fun q => bc.slave q.1) with hB
  set f : Pt × ℕ → List ℕ := fun a => (nodesB.filter (fun b => near (bc.mapping a.1) b.1)).map (·.2)
    with hf
  by_cases h1 : ((nodesA.map f).any (fun h => h.length != ((nodesA.map f).headD []).length)) = true
  · rw [if_pos h1] at h; simp at h
  rw [if_neg h1] at h
  by_cases h2 : nodesA.length ≠ (nodesA.map f).flatten.length
  · rw [if_pos h2] at h; simp at h
  rw [if_neg h2] at h
  rw [not_not] at h2
  have hone : ∀ a ∈ nodesA, (f a).length = 1 := by
    simp only [List.any_eq_true, bne_iff_ne, not_exists, not_and, not_not] at h1
    have hall : ∀ a ∈ nodesA, (f a).length = ((nodesA.map f).headD []).length :=
      fun a ha => h1 _ (List.mem_map_of_mem ha)
    have hsum : (nodesA.map f).flatten.length = nodesA.length * ((nodesA.map f).headD []).length := by
      rw [List.length_flatten, List.map_map]
      have := List.map_congr_left (g := fun _ => ((nodesA.map f).headD []).length) (fun a ha => hall a ha)
      change (nodesA.map (fun a => (f a).length)).sum = _
      rw [this]
      simp
    intro a ha
    rw [hall a ha]
    have hpos : 0 < nodesA.length := List.length_pos_of_mem ha
    rw [hsum] at h2
    exact (Nat.eq_of_mul_eq_mul_left hpos (by omega : nodesA.length * _ = nodesA.length * 1))
  obtain rfl := (Except.ok.inj h).symm
  obtain ⟨e1, e2⟩ := flatten_singletons f nodesA hone
  refine ⟨by simp only [List.length_map]; omega, fun i j => ?_⟩
  simp only
  rw [e2]
  unfold Spec.PairedNodes
  constructor
  · rintro ⟨a, ha, rfl, hj⟩
    rw [hf, List.mem_map] at hj
    obtain ⟨b, hb, rfl⟩ := hj
    rw [List.mem_filter, hB, List.mem_filter] at hb
    rw [hA, List.mem_filter] at ha
    have m1 := List.mem_zipIdx_iff_getElem?.mp ha.1
    have m2 := List.mem_zipIdx_iff_getElem?.mp hb.1.1
    exact ⟨a.1, b.1, m1, m2, ha.2, hb.1.2, hb.2⟩
  · rintro ⟨pi, pj, m1, m2, hm, hs, hn⟩
    refine ⟨(pi, i), ?_, rfl, ?_⟩
    · rw [hA, List.mem_filter]
      exact ⟨List.mem_zipIdx_iff_getElem?.mpr m1, hm⟩
    · rw [hf, List.mem_map]
      refine ⟨(pj, j), ?_, rfl⟩
      rw [List.mem_filter, hB, List.mem_filter]
      exact ⟨⟨List.mem_zipIdx_iff_getElem?.mpr m2, hs⟩, hn⟩

theorem zip_map_mem {α β : Type*} (f : α → β) (a b : List α) (x y : β) :
    (x, y) ∈ (a.map f).zip (b.map f) ↔ ∃ i j, (i, j) ∈ a.zip b ∧ f i = x ∧ f j = y := by
  rw [List.zip_map, List.mem_map]
  constructor
  · rintro ⟨⟨i, j⟩, h, e⟩
    simp only [Prod.map_apply, Prod.mk.injEq] at e
    exact ⟨i, j, h, e.1, e.2⟩
  · rintro ⟨i, j, h, rfl, rfl⟩
    exact ⟨(i, j), h, rfl⟩

theorem zip_flatten_mem {α β : Type*} (l : List (List α × List β)) (h : ∀ q ∈ l, q.1.length = q.2.length)
    (x : α) (y : β) : (x, y) ∈ ((l.map (·.1)).flatten).zip ((l.map (·.2)).flatten) ↔
      ∃ q ∈ l, (x, y) ∈ q.1.zip q.2 := by
  induction l with
  | nil => simp
  | cons q l ih =>
    rw [List.map_cons, List.map_cons, List.flatten_cons, List.flatten_cons,
      List.zip_append (h q (by simp)), List.mem_append, ih (fun q hq => h q (List.mem_cons_of_mem _ hq))]
    simp

theorem lengths_flatten {α β : Type*} (l : List (List α × List β)) (h : ∀ q ∈ l, q.1.length = q.2.length) :
    ((l.map (·.1)).flatten).length = ((l.map (·.2)).flatten).length := by
  rw [List.length_flatten, List.length_flatten, List.map_map, List.map_map]
  congr 1
  exact List.map_congr_left (fun q hq => h q hq)

/-- The DOF pairs the matrix is built from are exactly the paired DOFs. -/
theorem prolongationMatrix_ok (near : Pt → Pt → Bool) (points : List Pt) (vec : ℕ)
    (pairings : List (PeriodicPairing Pt)) (P : Coo R)
    (h : prolongationMatrix near points vec pairings = .ok P) :
    ∃ A B : List ℕ, A.length = B.length ∧ prolongationOf (points.length * vec) A B = .ok P ∧
      ∀ i j, (i, j) ∈ A.zip B ↔ Spec.PairedDofs near points vec pairings i j := by
  unfold prolongationMatrix at h
  cases hc : forCollect (pairDofs near points vec) pairings with
  | error e => rw [hc] at h; simp at h
  | ok l =>
    rw [hc] at h
    have hf := forCollect_ok _ _ _ hc
    have hpair : ∀ bc q, pairDofs near points vec bc = .ok q → q.1.length = q.2.length ∧
        ∀ i j, (i, j) ∈ q.1.zip q.2 ↔ ∃ a b, Spec.PairedNodes near points bc a b ∧
          i = a * vec + bc.vec ∧ j = b * vec + bc.vec := by
      intro bc q hq
      unfold pairDofs at hq
      cases hp : pairNodes near points bc with
      | error e => rw [hp] at hq; simp at hq
      | ok ab =>
        rw [hp] at hq
        obtain ⟨e1, e2⟩ := pairNodes_ok near points bc ab hp
        obtain rfl := (Except.ok.inj hq).symm
        refine ⟨by simpa using e1, fun i j => ?_⟩
        simp only
        rw [zip_map_mem]
        constructor
        · rintro ⟨a, b, hm, rfl, rfl⟩; exact ⟨a, b, (e2 a b).mp hm, rfl, rfl⟩
        · rintro ⟨a, b, hm, rfl, rfl⟩; exact ⟨a, b, (e2 a b).mpr hm, rfl, rfl⟩
    have hlen : ∀ q ∈ l, q.1.length = q.2.length := by
      intro q hq
      clear hc h
      induction hf with
      | nil => simp at hq
      | cons hx _ ih =>
        rcases List.mem_cons.mp hq with rfl | hq
        · exact (hpair _ _ hx).1
        · exact ih hq
    have hiff : ∀ i j, (∃ q ∈ l, (i, j) ∈ q.1.zip q.2) ↔
        Spec.PairedDofs near points vec pairings i j := by
      intro i j
      unfold Spec.PairedDofs
      clear hc h hlen
      induction hf with
      | nil => simp
      | cons hx _ ih =>
        simp only [List.mem_cons, exists_eq_or_imp]
        rw [ih, (hpair _ _ hx).2]
    cases l with
    | nil => simp at h
    | cons q qs =>
      refine ⟨_, _, lengths_flatten (q :: qs) hlen, h, fun i j => ?_⟩
      rw [zip_flatten_mem _ hlen, hiff]

theorem getD_zip_mem (A B : List ℕ) (k : ℕ) (hA : k < A.length) (hB : k < B.length) :
    (A.getD k 0, B.getD k 0) ∈ A.zip B := by
  rw [List.getD_eq_getElem _ _ hA, List.getD_eq_getElem _ _ hB]
  exact List.mem_iff_getElem.mpr ⟨k, by simp [hA, hB], by simp⟩

theorem zip_mem_getD (A B : List ℕ) (i j : ℕ) (h : (i, j) ∈ A.zip B) :
    ∃ k, k < A.length ∧ k < B.length ∧ A.getD k 0 = i ∧ B.getD k 0 = j := by
  obtain ⟨k, hk, e⟩ := List.mem_iff_getElem.mp h
  simp only [List.length_zip, lt_inf_iff] at hk
  rw [List.getElem_zip, Prod.mk.injEq] at e
  exact ⟨k, hk.1, hk.2, by rw [List.getD_eq_getElem _ _ hk.1, e.1],
    by rw [List.getD_eq_getElem _ _ hk.2, e.2]⟩

/-- Structure of an accepted prolongation without chains, for use by the solver theorems. -/
theorem prolongation_copies (near : Pt → Pt → Bool) (points : List Pt) (vec : ℕ)
    (pairings : List (PeriodicPairing Pt)) (P : Coo R)
    (h : prolongationMatrix near points vec pairings = .ok P)
    (hchain : ∀ i j k, Spec.PairedDofs near points vec pairings i j →
      ¬ Spec.PairedDofs near points vec pairings k i) :
    ∃ B : List ℕ, B.Nodup ∧ (∀ j, j ∈ B ↔ ∃ i, Spec.PairedDofs near points vec pairings i j) ∧
      (∀ b ∈ B, b < points.length * vec) ∧
      (∀ i j, Spec.PairedDofs near points vec pairings i j → i < points.length * vec) ∧
      ∃ col, Copies P (points.length * vec) (points.length * vec - B.length) col ∧
        (freeBelow B (points.length * vec)).length = points.length * vec - B.length ∧
        (∀ i < points.length * vec, i ∉ B → col i = (freeBelow B i).length) ∧
        ∀ i j, Spec.PairedDofs near points vec pairings i j → col j = col i := by
  obtain ⟨A, B, hl, hP, hiff⟩ := prolongationMatrix_ok near points vec pairings P h
  have hBmem : ∀ j, j ∈ B ↔ ∃ i, Spec.PairedDofs near points vec pairings i j := by
    intro j
    constructor
    · intro hj
      obtain ⟨k, hk, rfl⟩ := List.mem_iff_getElem.mp hj
      have hkA : k < A.length := hl ▸ hk
      have := (hiff _ _).mp (getD_zip_mem A B k hkA hk)
      rw [List.getD_eq_getElem B _ hk] at this
      exact ⟨_, this⟩
    · rintro ⟨i, hij⟩
      obtain ⟨k, _, hk, _, rfl⟩ := zip_mem_getD A B i j ((hiff i j).mpr hij)
      rw [List.getD_eq_getElem _ _ hk]; exact List.getElem_mem hk
  have hdisj : ∀ a ∈ A, a ∉ B := by
    intro a ha hb
    obtain ⟨k, hk, rfl⟩ := List.mem_iff_getElem.mp ha
    have hkB : k < B.length := hl ▸ hk
    have := (hiff _ _).mp (getD_zip_mem A B k hk hkB)
    rw [List.getD_eq_getElem A _ hk] at this
    obtain ⟨i, hi⟩ := (hBmem _).mp hb
    exact hchain _ _ _ this hi
  obtain ⟨h1, h2, h3, col, h4, h5, h6, h7⟩ := prolongationOf_spec _ A B hl hdisj P hP
  refine ⟨B, h1, hBmem, h2, ?_, col, h4, h5, h6, ?_⟩
  · intro i j hij
    obtain ⟨k, hkA, _, rfl, _⟩ := zip_mem_getD A B i j ((hiff i j).mpr hij)
    exact h3 _ (by rw [List.getD_eq_getElem _ _ hkA]; exact List.getElem_mem hkA)
  · intro i j hij
    obtain ⟨k, hkA, _, rfl, rfl⟩ := zip_mem_getD A B i j ((hiff i j).mpr hij)
    exact h7 k hkA

/-- **C22**. For every list of pairings accepted by `prolongation_matrix` in which no master is also a
slave: `P` has shape `(N, N - number of slaves)`, every row has exactly one entry, a `1`, in a valid
column; `P v` always satisfies `u[slave] = u[master]`; and every field with that property is `P v` for
exactly one `v`. -/
theorem C22_prolongation_partial (near : Pt → Pt → Bool) (points : List Pt) (vec : ℕ)
    (pairings : List (PeriodicPairing Pt)) (P : Coo R)
    (h : prolongationMatrix near points vec pairings = .ok P)
    (hchain : ∀ i j k, Spec.PairedDofs near points vec pairings i j →
      ¬ Spec.PairedDofs near points vec pairings k i) :
    P.rows = points.length * vec ∧
    P.cols + (Spec.slaveDofs near points vec pairings (points.length * vec)).ncard = points.length * vec ∧
    (∀ i < points.length * vec, ∃ c < P.cols,
      P.entries.filter (fun e => e.1 == i) = [(i, (c : ℤ), 1)]) ∧
    (∀ v i j, Spec.PairedDofs near points vec pairings i j →
      (P.matvec v).getD j 0 = (P.matvec v).getD i 0) ∧
    (∀ u : List R, u.length = points.length * vec →
      (∀ i j, Spec.PairedDofs near points vec pairings i j → u.getD j 0 = u.getD i 0) →
      ∃! v, v.length = P.cols ∧ P.matvec v = u) := by
  obtain ⟨B, hnd, hBmem, hBlt, hAlt, col, hcop, hfree, hcol, hpair⟩ :=
    prolongation_copies near points vec pairings P h hchain
  set N := points.length * vec with hN
  have hBle : B.length ≤ N := by
    have : B.toFinset ⊆ Finset.range N := fun x hx => Finset.mem_range.mpr (hBlt x (by simpa using hx))
    have := Finset.card_le_card this
    rwa [List.toFinset_card_of_nodup hnd, Finset.card_range] at this
  refine ⟨hcop.rows, ?_, ?_, ?_, ?_⟩
  · have : Spec.slaveDofs near points vec pairings N = (B.toFinset : Set ℕ) := by
      ext j
      simp only [Spec.slaveDofs, Set.mem_ofPred_eq, Finset.mem_coe, List.mem_toFinset]
      rw [hBmem]
      exact ⟨fun h => h.2, fun h => ⟨hBlt j ((hBmem j).mpr h), h⟩⟩
    rw [this, Set.ncard_coe_finset, List.toFinset_card_of_nodup hnd, hcop.cols]
    omega
  · intro i hi
    refine ⟨col i, by rw [hcop.cols]; exact hcop.lt i hi, ?_⟩
    rw [hcop.entries, List.filter_map]
    have : ((List.range N).filter ((fun e : ℕ × ℤ × R => e.1 == i) ∘ fun i => (i, (col i : ℤ), 1)))
        = [i] := by
      change (List.range N).filter (fun j => j == i) = _
      rw [filter_range_beq, if_pos hi]
    rw [this]; rfl
  · intro v i j hij
    rw [hcop.matvec_getD v j (hBlt j ((hBmem j).mpr ⟨i, hij⟩)), hcop.matvec_getD v i (hAlt i j hij),
      hpair i j hij]
  · intro u hu hper
    have hcol_rank : ∀ c (hc : c < (freeBelow B N).length), col (freeBelow B N)[c] = c := by
      intro c hc
      have hm : (freeBelow B N)[c] ∈ (List.range N).filter (fun j => decide (j ∉ B)) := List.getElem_mem hc
      rw [List.mem_filter, List.mem_range, decide_eq_true_eq] at hm
      rw [hcol _ hm.1 hm.2]
      exact freeBelow_rank B N c hc
    have hfreelt : ∀ c (hc : c < (freeBelow B N).length), (freeBelow B N)[c] < N := by
      intro c hc
      have hm := List.getElem_mem hc
      unfold freeBelow at hm
      rw [List.mem_filter, List.mem_range] at hm
      exact hm.1
    -- the value at a DOF is that of its free representative
    have hrep : ∀ i < N, ∃ m < N, m ∉ B ∧ col i = col m ∧ u.getD i 0 = u.getD m 0 := by
      intro i hi
      by_cases hB : i ∈ B
      · obtain ⟨m, hm⟩ := (hBmem i).mp hB
        refine ⟨m, hAlt m i hm, ?_, hpair m i hm, hper m i hm⟩
        intro hmB
        obtain ⟨k, hk⟩ := (hBmem m).mp hmB
        exact hchain m i k hm hk
      · exact ⟨i, hi, hB, rfl, rfl⟩
    refine ⟨(freeBelow B N).map (fun i => u.getD i 0), ⟨by simp [hfree, hcop.cols], ?_⟩, ?_⟩
    · apply List.ext_getElem
      · rw [hcop.matvec_length, hu]
      · intro i h1 h2
        have hi : i < N := by rw [hcop.matvec_length] at h1; exact h1
        rw [← List.getD_eq_getElem _ 0 h1, ← List.getD_eq_getElem _ 0 h2, hcop.matvec_getD _ i hi]
        obtain ⟨m, hm, hmB, e1, e2⟩ := hrep i hi
        rw [e1, e2, hcol m hm hmB]
        have hlt := freeBelow_mono_length B N m hm hmB
        have hg := freeBelow_getElem B N m hm hmB
        rw [List.getD_eq_getElem _ _ (by simpa using hlt), List.getElem_map]
        obtain ⟨_, hg⟩ := List.getElem?_eq_some_iff.mp hg
        rw [hg]
    · rintro v ⟨hv, hPv⟩
      apply List.ext_getElem
      · rw [hv, hcop.cols]; simp [hfree]
      · intro c h1 h2
        have hc : c < (freeBelow B N).length := by simpa using h2
        rw [List.getElem_map]
        have hPv' : ∀ i, u.getD i 0 = (P.matvec v).getD i 0 := fun i => by rw [hPv]
        rw [hPv', hcop.matvec_getD _ _ (hfreelt c hc), hcol_rank c hc,
          List.getD_eq_getElem _ _ h1]

end

/-! ### Concrete cases -/

/-- Nodes `0, 1, 2, 3` on a line; `3` is the periodic image of `0`. -/
def exPair : PeriodicPairing ℤ := ⟨fun x => x == 0, fun x => x == 3, fun x => x + 3, 1⟩

/-- Exact matching. -/
def exNear (a b : ℤ) : Bool := a == b

/-- Two components per node, component `1` periodic. -/
theorem exPair_ok : prolongationMatrix (R := ℤ) exNear [0, 1, 2, 3] 2 [exPair] = .ok
    ⟨8, 7, [(0, 0, 1), (1, 1, 1), (2, 2, 1), (3, 3, 1), (4, 4, 1), (5, 5, 1), (6, 6, 1), (7, 1, 1)]⟩ := by
  decide

theorem exPair_dofs (i j : ℕ) (h : Spec.PairedDofs exNear [0, 1, 2, 3] 2 [exPair] i j) : i = 1 ∧ j = 7 := by
  obtain ⟨bc, hbc, a, b, ⟨pi, pj, ha, hb, hm, hs, _⟩, rfl, rfl⟩ := h
  obtain rfl := List.mem_singleton.mp hbc
  simp only [exPair, beq_iff_eq] at hm hs
  subst hm hs
  have h1 : a = 0 := by
    match a, ha with
    | 0, _ => rfl
    | 1, h => simp at h
    | 2, h => simp at h
    | 3, h => simp at h
    | n + 4, h => simp at h
  have h2 : b = 3 := by
    match b, hb with
    | 0, h => simp at h
    | 1, h => simp at h
    | 2, h => simp at h
    | 3, _ => rfl
    | n + 4, h => simp at h
  subst h1 h2
  exact ⟨rfl, rfl⟩

example := C22_prolongation_partial (R := ℤ) exNear [0, 1, 2, 3] 2 [exPair] _ exPair_ok
  (fun i j k h1 h2 => by
    have := exPair_dofs i j h1
    have := exPair_dofs k i h2
    omega)

/-- **C22** (missing part): a chain of pairings (node `0` ties node `1`, node `1` ties node `2`) is
accepted, and the matrix gets an entry with a negative column: the constraint of the last pairing is not
what the caller asked for. -/
theorem C22_chain_gives_negative_column :
    prolongationMatrix (R := ℤ) exNear [0, 1, 2] 1
      [⟨fun x => x == 0, fun x => x == 1, fun x => x + 1, 0⟩,
       ⟨fun x => x == 1, fun x => x == 2, fun x => x + 1, 0⟩]
      = .ok ⟨3, 1, [(0, 0, 1), (1, 0, 1), (2, -1, 1)]⟩ := by decide

end Verif.Props
