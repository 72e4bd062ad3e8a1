import Verif.Model.Direct
import Mathlib.Data.List.Nodup

/-!
# C40, C67: cached factorisations
-/

namespace Verif.Props

open Verif.Model

section
variable {M F X Y : Type*}

/-- What is assumed of the factorisation library. `pattern A` is the sparsity pattern of `A`, `symbolic f` the one the
factor object `f` was analysed for: re-using `f` for a matrix of that pattern succeeds and fails exactly as a fresh
factorisation does, and then solves the same; nothing is assumed for other patterns. -/
structure FactorContract (lib : FactorLib M F X Y) (pattern : M → CsrPattern) (symbolic : F → CsrPattern) : Prop where
  factor_symbolic : ∀ A f, lib.factor A = .ok f → symbolic f = pattern A
  refactor_symbolic : ∀ f A, symbolic (lib.refactor f A).1 = symbolic f
  refactor_error : ∀ f A e, symbolic f = pattern A → lib.factor A = .error e → (lib.refactor f A).2 = some e
  refactor_ok : ∀ f A g, symbolic f = pattern A → lib.factor A = .ok g →
    (lib.refactor f A).2 = none ∧ ∀ rhs, lib.solve (lib.refactor f A).1 rhs = lib.solve g rhs

/-- The answer of a process that has made no call before: factorise, then solve. -/
def freshAnswer (lib : FactorLib M F X Y) (A : M) (rhs : X) : Except PyErr Y :=
  match lib.factor A with
  | .error e => .error e
  | .ok f => lib.solve f rhs

/-- Everything recorded in the cache belongs to the cached factor. -/
def CacheOk (symbolic : F → CsrPattern) (s : CacheState F) : Prop :=
  ∀ f, s.factor = some f → ∀ c o n, s.columns = some c → s.offsets = some o → s.n = some n → symbolic f = ⟨c, o, n⟩

theorem cacheOk_empty (symbolic : F → CsrPattern) : CacheOk symbolic (CacheState.empty : CacheState F) := by
  intro f hf
  simp [CacheState.empty] at hf

theorem changed_false {s : CacheState F} {p : CsrPattern} (h : s.changed p = false) :
    ∃ f, s.factor = some f ∧ s.columns = some p.columns ∧ s.offsets = some p.offsets ∧ s.n = some p.n := by
  unfold CacheState.changed at h
  simp only [Bool.or_eq_false_iff, decide_eq_false_iff_not, ne_eq, not_not] at h
  obtain ⟨⟨⟨h1, h2⟩, h3⟩, h4⟩ := h
  cases hf : s.factor with
  | none => simp [hf] at h1
  | some f => exact ⟨f, rfl, h3, h4, h2⟩

/-- The factorisation step from a consistent cache: consistent again, the exception of a fresh factorisation, and a
factor solving like a fresh one. -/
theorem cacheFactorize_spec (lib : FactorLib M F X Y) (pattern : M → CsrPattern) (symbolic : F → CsrPattern)
    (hc : FactorContract lib pattern symbolic) (s : CacheState F) (hs : CacheOk symbolic s) (A : M) :
    CacheOk symbolic (cacheFactorize lib s (pattern A) A).1 ∧
      (∀ e, lib.factor A = .error e → (cacheFactorize lib s (pattern A) A).2 = some e) ∧
      (∀ g, lib.factor A = .ok g → (cacheFactorize lib s (pattern A) A).2 = none ∧
        ∀ rhs, cacheSolve lib (cacheFactorize lib s (pattern A) A).1 rhs = lib.solve g rhs) := by
  unfold cacheFactorize
  by_cases hch : s.changed (pattern A) = true
  · rw [if_pos hch]
    cases hf : lib.factor A with
    | error e => simpa using hs
    | ok g =>
      simp only [reduceCtorEq, false_implies, implies_true, true_and, Except.ok.injEq]
      refine ⟨?_, ?_⟩
      · intro f hf' c o n h1 h2 h3
        simp only [Option.some.injEq] at hf' h1 h2 h3
        subst hf' h1 h2 h3
        exact hc.factor_symbolic A g hf
      · rintro g' rfl rhs
        rfl
  · rw [if_neg hch]
    obtain ⟨f, h1, h2, h3, h4⟩ := changed_false (Bool.not_eq_true _ ▸ hch)
    have hsym : symbolic f = pattern A := hs f h1 _ _ _ h2 h3 h4
    simp only [h1]
    refine ⟨?_, fun e he => hc.refactor_error f A e hsym he, fun g hg => ?_⟩
    · intro f' hf' c o n k1 k2 k3
      simp only [Option.some.injEq] at hf'
      subst hf'
      rw [hc.refactor_symbolic]
      exact hs f h1 c o n k1 k2 k3
    · obtain ⟨a, b⟩ := hc.refactor_ok f A g hsym hg
      exact ⟨a, b⟩

theorem cacheCall_spec (lib : FactorLib M F X Y) (pattern : M → CsrPattern) (symbolic : F → CsrPattern)
    (hc : FactorContract lib pattern symbolic) (s : CacheState F) (hs : CacheOk symbolic s) (A : M) (rhs : X) :
    CacheOk symbolic (cacheCall lib s (pattern A) A rhs).1 ∧
      (cacheCall lib s (pattern A) A rhs).2 = freshAnswer lib A rhs := by
  obtain ⟨h1, h2, h3⟩ := cacheFactorize_spec lib pattern symbolic hc s hs A
  unfold cacheCall freshAnswer
  cases hf : lib.factor A with
  | error e =>
    have h := h2 e hf
    generalize hr : cacheFactorize lib s (pattern A) A = r at *
    obtain ⟨s', o⟩ := r
    simp only at h h1
    subst h
    exact ⟨h1, rfl⟩
  | ok g =>
    obtain ⟨h, h'⟩ := h3 g hf
    generalize hr : cacheFactorize lib s (pattern A) A = r at *
    obtain ⟨s', o⟩ := r
    simp only at h h1 h'
    subst h
    exact ⟨h1, h' rhs⟩

/-- C40 (partial): whatever calls came before, with any patterns, values, right-hand sides and failures, the answer of
every call, value or exception, is the one of a fresh process. Missing: calls interrupted half-way through updating the
cache (`C40_interrupted_update_poisons`). -/
theorem C40_history_independent_partial (lib : FactorLib M F X Y) (pattern : M → CsrPattern) (symbolic : F → CsrPattern)
    (hc : FactorContract lib pattern symbolic) (calls : List (M × X)) :
    cacheRun lib CacheState.empty (calls.map fun c => (pattern c.1, c.1, c.2)) =
      calls.map fun c => freshAnswer lib c.1 c.2 := by
  suffices H : ∀ s, CacheOk symbolic s → cacheRun lib s (calls.map fun c => (pattern c.1, c.1, c.2)) =
      calls.map fun c => freshAnswer lib c.1 c.2 from H _ (cacheOk_empty symbolic)
  induction calls with
  | nil => intro s _; rfl
  | cons c rest ih =>
    intro s hs
    obtain ⟨h1, h2⟩ := cacheCall_spec lib pattern symbolic hc s hs c.1 c.2
    rw [List.map_cons, List.map_cons, cacheRun]
    simp only
    rw [h2, ih _ h1]

/-- C67 (partial): calls sharing one cache, one after the other in any order, each get the answer of a fresh process.
Missing: overlapping calls (`C67_overlapping_calls_mix_matrices`). -/
theorem C67_serial_calls_partial (lib : FactorLib M F X Y) (pattern : M → CsrPattern) (symbolic : F → CsrPattern)
    (hc : FactorContract lib pattern symbolic) (calls : ℕ → M × X) (order : List ℕ) (hnodup : order.Nodup) :
    cacheSchedule lib (fun t => (pattern (calls t).1, (calls t).1, (calls t).2)) CacheState.empty (fun _ => none)
        (order.flatMap fun t => [t, t]) =
      order.map fun t => (t, freshAnswer lib (calls t).1 (calls t).2) := by
  suffices H : ∀ s (progress : ℕ → Option (Option PyErr)), CacheOk symbolic s → (∀ t ∈ order, progress t = none) →
      cacheSchedule lib (fun t => (pattern (calls t).1, (calls t).1, (calls t).2)) s progress
        (order.flatMap fun t => [t, t]) = order.map fun t => (t, freshAnswer lib (calls t).1 (calls t).2) from
    H _ _ (cacheOk_empty symbolic) fun _ _ => rfl
  induction order with
  | nil => intro s p _ _; simp [cacheSchedule]
  | cons t rest ih =>
    intro s p hs hp
    have hnt : t ∉ rest := (List.nodup_cons.1 hnodup).1
    have ih' := ih (List.nodup_cons.1 hnodup).2
    rw [List.flatMap_cons, List.map_cons]
    simp only [List.cons_append, List.nil_append]
    rw [cacheSchedule]
    simp only [hp t (by simp)]
    rw [cacheSchedule]
    simp only [Function.update_self]
    have hrest : ∀ (o : Option PyErr), ∀ u ∈ rest, Function.update p t (some o) u = none := by
      intro o u hu
      rw [Function.update_of_ne (by rintro rfl; exact hnt hu)]
      exact hp u (by simp [hu])
    obtain ⟨h1, h2, h3⟩ := cacheFactorize_spec lib pattern symbolic hc s hs (calls t).1
    generalize cacheFactorize lib s (pattern (calls t).1) (calls t).1 = r at *
    obtain ⟨s', o⟩ := r
    simp only at h1 h2 h3 ⊢
    unfold freshAnswer
    cases hf : lib.factor (calls t).1 with
    | error e =>
      have := h2 e hf
      subst this
      simp only
      rw [ih' s' _ h1 (hrest _)]
      rfl
    | ok g =>
      obtain ⟨this, hsol⟩ := h3 g hf
      subst this
      simp only
      rw [ih' s' _ h1 (hrest _), hsol]
      rfl

end

/-- A small library meeting the contract: a system with value `a` and right-hand side `b` is "solved" by reporting
`(a, b)`; a zero matrix cannot be factorised; re-use for another pattern is refused, the most careful a library can
be. -/
def exLib : FactorLib (CsrPattern × ℤ) (CsrPattern × ℤ) ℤ (ℤ × ℤ) where
  factor A := if A.2 = 0 then .error .runtimeError else .ok A
  refactor f A :=
    if A.2 = 0 then (f, some .runtimeError) else if f.1 = A.1 then ((f.1, A.2), none) else (f, some .valueError)
  solve f rhs := .ok (f.2, rhs)

theorem exLib_contract : FactorContract exLib (fun A => A.1) (fun f => f.1) := by
  refine ⟨?_, ?_, ?_, ?_⟩
  · intro A f h
    unfold exLib at h
    simp only at h
    split at h
    · simp at h
    · simp only [Except.ok.injEq] at h; rw [h]
  · intro f A
    unfold exLib
    simp only
    split
    · rfl
    · split <;> rfl
  · intro f A e hs h
    unfold exLib at h ⊢
    simp only at h ⊢
    split at h
    · rename_i h0
      simp only [Except.error.injEq] at h
      rw [if_pos h0, h]
    · simp at h
  · intro f A g hs h
    unfold exLib at h ⊢
    simp only at h ⊢
    split at h
    · simp at h
    · rename_i h0
      simp only [Except.ok.injEq] at h
      subst h
      rw [if_neg h0, if_pos hs]
      exact ⟨rfl, fun _ => rfl⟩

/-- Two patterns. -/
def exPat1 : CsrPattern := ⟨[0], [0, 1], 1⟩
def exPat2 : CsrPattern := ⟨[0, 1], [0, 1, 2], 2⟩

/-- A history with a re-use, a failure, a pattern change and a return. -/
example : (cacheRun exLib CacheState.empty [(exPat1, (exPat1, 2), 10), (exPat1, (exPat1, 3), 10), (exPat1, (exPat1, 0), 10),
      (exPat2, (exPat2, 5), 7), (exPat1, (exPat1, 4), 9)]).map Except.toOption =
    [some (2, 10), some (3, 10), none, some (5, 7), some (4, 9)] := by decide +kernel

/-- C40 fails if a call is interrupted between the assignments of the cache (out of memory in a copy, Ctrl-C): the next
call with the first pattern fails although its matrix is fine, and so does every later one with that pattern. -/
theorem C40_interrupted_update_poisons :
    FactorContract exLib (fun A => A.1) (fun f => f.1) ∧
    ∀ m : ℕ,
      let s0 := (cacheCall exLib CacheState.empty exPat1 (exPat1, 2) 10).1
      let s1 := cacheCallInterrupted exLib s0 exPat2 (exPat2, 5) 1
      freshAnswer exLib (exPat1, 3) 10 = .ok (3, 10) ∧
      cacheRun exLib s1 (List.replicate m (exPat1, (exPat1, 3), 10)) = List.replicate m (.error .valueError) := by
  refine ⟨exLib_contract, fun m => ⟨rfl, ?_⟩⟩
  induction m with
  | zero => rfl
  | succ m ih =>
    rw [List.replicate_succ, List.replicate_succ, cacheRun]
    simp only
    congr 1

/-- C67 fails for overlapping calls: two calls with the same pattern on one cache, scheduled factorise, factorise, solve,
solve; the first gets the solution for the second one's matrix. -/
theorem C67_overlapping_calls_mix_matrices :
    FactorContract exLib (fun A => A.1) (fun f => f.1) ∧
    cacheSchedule exLib (fun t => if t = 0 then (exPat1, (exPat1, 2), 10) else (exPat1, (exPat1, 3), 10)) CacheState.empty
        (fun _ => none) [0, 1, 0, 1] = [(0, .ok (3, 10)), (1, .ok (3, 10))] ∧
    freshAnswer exLib (exPat1, 2) 10 = .ok (2, 10) := by
  refine ⟨exLib_contract, rfl, rfl⟩

/-- The same two calls one after the other, in either order. -/
example : cacheSchedule exLib (fun t => if t = 0 then (exPat1, (exPat1, 2), 10) else (exPat1, (exPat1, 3), 10)) CacheState.empty
    (fun _ => none) [1, 1, 0, 0] = [(1, .ok (3, 10)), (0, .ok (2, 10))] := rfl

end Verif.Props
