import Verif.Props.Batched
import Verif.Model.NestedBatch

/-!
# C39: several batch axes
-/

namespace Verif.Props
open Verif.Model

variable {K : Type*} [CommRing K]

theorem flatten_rows_getD {α : Type*} (d : α) (m : ℕ) (L : List (List α)) (hL : ∀ r ∈ L, r.length = m) (i j : ℕ)
    (hi : i < L.length) (hj : j < m) : L.flatten.getD (i * m + j) d = (L.getD i []).getD j d := by
  induction L generalizing i with
  | nil => simp at hi
  | cons a L ih =>
    have ha := hL a (by simp)
    rw [List.flatten_cons]
    cases i with
    | zero =>
      rw [Nat.zero_mul, Nat.zero_add, List.getD_append _ _ _ _ (by omega)]
      rfl
    | succ i =>
      rw [List.getD_append_right _ _ _ _ (by rw [ha]; nlinarith), ha, show (i + 1) * m + j - m = i * m + j by
        rw [Nat.succ_mul]; omega]
      rw [ih (fun r hr => hL r (by simp [hr])) i (by simpa using hi)]
      rfl

theorem flatten_rows_length {α : Type*} (m : ℕ) (L : List (List α)) (hL : ∀ r ∈ L, r.length = m) :
    L.flatten.length = L.length * m := by
  induction L with
  | nil => simp
  | cons a L ih =>
    rw [List.flatten_cons, List.length_append, ih (fun r hr => hL r (by simp [hr])), hL a (by simp), List.length_cons]
    ring

/-- C39: called directly with two batch axes, the batched solves return, in the same arrangement, for every instance the
solution of that instance's own system. -/
theorem C39_two_axes (batched : List (List K) → BatchValues K → List ℕ → List ℕ → Except PyErr (List (List K))) (tr : Bool)
    (n : ℕ) (offsets columns : List ℕ)
    (hbatched : ∀ bs vals X, (∀ r ∈ bs, r.length = n) → batched bs vals offsets columns = .ok X →
      AllSolved n bs (BatchValues.sys vals) (fun _ => offsets) (fun _ => columns) tr X)
    (outer inner : ℕ) (b : List (List (List K))) (hbo : b.length = outer) (hbi : ∀ r ∈ b, r.length = inner)
    (hbn : ∀ r ∈ b, ∀ s ∈ r, s.length = n) (vals : List K ⊕ List (List (List K)))
    (hvals : ∀ vs, vals = .inr vs → vs.length = outer ∧ ∀ r ∈ vs, r.length = inner) (X : List (List (List K)))
    (h : gridBatched batched outer inner b vals offsets columns = .ok X) :
    X.length = outer ∧ (∀ r ∈ X, r.length = inner) ∧ ∀ i < outer, ∀ j < inner, ((X.getD i []).getD j []).length = n ∧
      SolvesDense (buildCsr (match vals with
        | .inl v => v
        | .inr vs => (vs.getD i []).getD j []) columns offsets n).todense tr n ((X.getD i []).getD j []) ((b.getD i []).getD j []) := by
  unfold gridBatched at h
  cases hx : batched b.flatten (mergedValues vals) offsets columns with
  | error e => rw [hx] at h; cases h
  | ok x =>
    rw [hx] at h
    obtain rfl : regroup outer inner x = X := Except.ok.inj h
    obtain ⟨-, hall⟩ := hbatched _ _ x (by
      intro r hr
      obtain ⟨l, hl, hrl⟩ := List.mem_flatten.1 hr
      exact hbn l hl r hrl) hx
    refine ⟨by simp [regroup], ?_, ?_⟩
    · intro r hr
      obtain ⟨i, -, rfl⟩ := List.mem_map.1 hr
      simp
    · intro i hi j hj
      have e : ((regroup outer inner x).getD i []).getD j [] = x.getD (i * inner + j) [] := by
        simp [regroup, List.getD_eq_getElem?_getD, hi, hj]
      have hk : i * inner + j < b.flatten.length := by
        rw [flatten_rows_length inner b hbi, hbo]
        nlinarith
      have hs := hall (i * inner + j) hk
      rw [flatten_rows_getD [] inner b hbi i j (by omega) hj] at hs
      rw [e]
      refine ⟨hs.1, ?_⟩
      cases vals with
      | inl v => exact hs.2
      | inr vs =>
        obtain ⟨h1, h2⟩ := hvals vs rfl
        have h3 := hs.2
        simp only [mergedValues, BatchValues.sys] at h3
        rwa [flatten_rows_getD [] inner vs h2 i j (by omega) hj] at h3

/-- C39 for CHOLMOD and SciPy, and for UMFPACK, with two batch axes. -/
theorem C39_two_axes_backends (solve : CSRMatrix K → List K → Except PyErr (List K)) (tr : Bool) (hs : SoundBackend solve tr)
    (n : ℕ) (offsets columns : List ℕ) (hv : ValidPattern n offsets columns)
    (batched : List (List K) → BatchValues K → List ℕ → List ℕ → Except PyErr (List (List K)))
    (hb : batched = cholmodBatched solve n ∨ batched = umfpackBatched solve n)
    (outer inner : ℕ) (b : List (List (List K))) (hbo : b.length = outer) (hbi : ∀ r ∈ b, r.length = inner)
    (hbn : ∀ r ∈ b, ∀ s ∈ r, s.length = n) (vals : List K ⊕ List (List (List K)))
    (hvals : ∀ vs, vals = .inr vs → vs.length = outer ∧ ∀ r ∈ vs, r.length = inner) (X : List (List (List K)))
    (h : gridBatched batched outer inner b vals offsets columns = .ok X) (i : ℕ) (hi : i < outer) (j : ℕ) (hj : j < inner) :
    SolvesDense (buildCsr (match vals with
      | .inl v => v
      | .inr vs => (vs.getD i []).getD j []) columns offsets n).todense tr n ((X.getD i []).getD j []) ((b.getD i []).getD j []) := by
  refine ((C39_two_axes batched tr n offsets columns ?_ outer inner b hbo hbi hbn vals hvals X h).2.2 i hi j hj).2
  intro bs vals X hbs hX
  rcases hb with rfl | rfl
  · exact C39_cholmod_batched solve tr hs n offsets columns hv bs hbs vals X hX
  · exact C39_umfpack_batched solve tr hs n offsets columns hv bs hbs vals X hX

/-- C39 fails for nested `vmap`: a solve mapped twice raises `TypeError` in the host callback, for every pattern of a system
with unknowns, every batch size and every right-hand side. -/
theorem C39_nested_vmap_refused {X : Type} (n outer : ℕ) (hn : 0 < n) (ho : 0 < outer) (offsets : Mapped (List ℕ))
    (hlen : (offsets.first []).length = n + 1) (rest : ℕ → Except PyErr X) :
    nestedVmapSolve outer offsets rest = .error .typeError := by
  unfold nestedVmapSolve nestedCallback
  obtain ⟨k, rfl⟩ : ∃ k, outer = k + 1 := ⟨outer - 1, by omega⟩
  rw [List.replicate_succ', List.getLastD_concat]
  have : pyIntOfArray (offsets.first []) = .error .typeError := by
    match h : offsets.first [] with
    | [] => rfl
    | [x] => rw [h] at hlen; simp at hlen; omega
    | x :: y :: l => rfl
  rw [this]
  rfl

/-- A batch of two times two systems with two unknowns. -/
example : nestedVmapSolve (X := Unit) 2 (.same [0, 1, 2]) (fun _ => .ok ()) = .error .typeError :=
  C39_nested_vmap_refused 2 2 (by decide) (by decide) _ rfl _

example : gridBatched (K := ℚ) (cholmodBatched (fun _ rhs => .ok rhs) 1) 2 1 [[[3]], [[4]]] (.inl [1]) [0, 1] [0] = .ok [[[3]], [[4]]] := by
  decide +kernel

end Verif.Props
