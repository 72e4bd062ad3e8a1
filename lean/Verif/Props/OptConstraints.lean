import Verif.Model.Optimizer
import Verif.Lemmas.Arr
import Mathlib.Algebra.Order.Field.Rat
import Mathlib.Algebra.Order.Group.Abs
import Mathlib.Analysis.Calculus.Deriv.Add
import Mathlib.Analysis.Calculus.Deriv.Mul
import Mathlib.Tactic.Linarith

/-!
# C52, C71, C72: constraints, history and passive regions of the topology optimisation driver
-/

namespace Verif.Props
open Verif.Model

/-! ### C52: constraints -/

section
variable {F V : Type*} [Field F] [LinearOrder F] [IsStrictOrderedRing F] [Neg V]

/-- Specification: what `@constraint` promises of a design, up to the tolerance `δ` with which the optimiser accepts a constraint. -/
def Satisfies (m : ConMethod F V) (x : V) (δ : F) : Prop :=
  match m.type with
  | .le => m.fn x ≤ m.target + δ
  | .eq => |m.fn x - m.target| ≤ m.tol + δ
  | .ge => m.target - δ ≤ m.fn x

/-- **C52.** A design satisfies all constraints registered with the optimiser exactly when it satisfies all declared ones:
`f ≤ target` for `'le'`, `|f - target| ≤ tol` for `'eq'`. -/
theorem C52_feasible_iff (ms : List (ConMethod F V)) (x : V) (δ : F) :
    (∀ r ∈ registered (collectConstraints ms), r.1 x ≤ δ) ↔ ∀ m ∈ ms, Satisfies m x δ := by
  unfold registered collectConstraints
  simp only [List.mem_flatMap]
  constructor
  · intro h m hm
    unfold Satisfies
    cases ht : m.type with
    | le =>
      have := h (fun x => m.fn x - m.target, fun x => m.grad x)
        ⟨⟨m.name, m.fn, m.grad, m.target, .le⟩, ⟨m, hm, by rw [ht]; simp⟩, by simp⟩
      simp only at this ⊢
      linarith
    | ge =>
      have := h (fun x => -(m.fn x - m.target), fun x => -(m.grad x))
        ⟨⟨m.name, m.fn, m.grad, m.target, .ge⟩, ⟨m, hm, by rw [ht]; simp⟩, by simp⟩
      simp only at this ⊢
      linarith
    | eq =>
      have h1 := h (fun x => m.fn x - (m.target + m.tol), fun x => m.grad x)
        ⟨⟨m.name, m.fn, m.grad, m.target + m.tol, .le⟩, ⟨m, hm, by rw [ht]; simp⟩, by simp⟩
      have h2 := h (fun x => -(m.fn x - (m.target - m.tol)), fun x => -(m.grad x))
        ⟨⟨m.name ++ "_lb", m.fn, m.grad, m.target - m.tol, .ge⟩, ⟨m, hm, by rw [ht]; simp⟩, by simp⟩
      simp only at h1 h2 ⊢
      rw [abs_le]
      constructor <;> linarith
  · rintro h r ⟨e, ⟨m, hm, he⟩, hr⟩
    have hs := h m hm
    unfold Satisfies at hs
    cases ht : m.type with
    | le =>
      rw [ht] at he hs
      simp only [List.mem_singleton] at he
      subst he
      simp only [List.mem_singleton] at hr
      subst hr
      simp only at hs ⊢
      linarith
    | ge =>
      rw [ht] at he hs
      simp only [List.mem_singleton] at he
      subst he
      simp only [List.mem_singleton] at hr
      subst hr
      simp only at hs ⊢
      linarith
    | eq =>
      rw [ht] at he hs
      simp only [List.mem_cons, List.not_mem_nil, or_false] at he
      simp only [abs_le] at hs
      rcases he with he | he <;> subst he <;> simp only [List.mem_singleton] at hr <;> subst hr <;> simp only <;> linarith

/-- **C52.** Only `'le'` and `'eq'` are accepted. -/
theorem C52_other_types_raise (s : String) : (constraintType s).isOk = true ↔ s = "le" ∨ s = "eq" := by
  unfold constraintType
  by_cases h1 : s = "le"
  · rw [if_pos h1]; simp [h1, Except.isOk, Except.toBool]
  · by_cases h2 : s = "eq"
    · rw [if_neg h1, if_pos h2]; simp [h2, Except.isOk, Except.toBool]
    · rw [if_neg h1, if_neg h2]; simp [h1, h2, Except.isOk, Except.toBool]

end

/-- Specification: `g` is the gradient of `f` (all directional derivatives). -/
def IsGradient {n : ℕ} (f : (Fin n → ℝ) → ℝ) (g : (Fin n → ℝ) → (Fin n → ℝ)) : Prop :=
  ∀ x d, HasDerivAt (fun t : ℝ => f (x + t • d)) (∑ i, g x i * d i) 0

/-- **C52.** The gradients handed to the optimiser are the gradients of the values handed to it. -/
theorem C52_gradients {n : ℕ} (ms : List (ConMethod ℝ (Fin n → ℝ))) (h : ∀ m ∈ ms, IsGradient m.fn m.grad) :
    ∀ r ∈ registered (collectConstraints ms), IsGradient r.1 r.2 := by
  have hle : ∀ (m : ConMethod ℝ (Fin n → ℝ)) (c : ℝ), IsGradient m.fn m.grad → IsGradient (fun x => m.fn x - c) fun x => m.grad x :=
    fun m c hm x d => (hm x d).sub_const c
  have hge : ∀ (m : ConMethod ℝ (Fin n → ℝ)) (c : ℝ), IsGradient m.fn m.grad →
      IsGradient (fun x => -(m.fn x - c)) fun x => -(m.grad x) := by
    intro m c hm x d
    have h1 : (∑ i, (-(m.grad x)) i * d i) = -∑ i, m.grad x i * d i := by
      simp [Finset.sum_neg_distrib]
    rw [h1]
    exact ((hm x d).sub_const c).neg
  unfold registered collectConstraints
  simp only [List.mem_flatMap]
  rintro r ⟨e, ⟨m, hm, he⟩, hr⟩
  cases ht : m.type <;> rw [ht] at he <;> simp only [List.mem_cons, List.not_mem_nil, or_false] at he
  · subst he
    simp only [List.mem_singleton] at hr
    subst hr
    exact hle m _ (h m hm)
  · rcases he with he | he <;> subst he <;> simp only [List.mem_singleton] at hr <;> subst hr
    · exact hle m _ (h m hm)
    · exact hge m _ (h m hm)
  · subst he
    simp only [List.mem_singleton] at hr
    subst hr
    exact hge m _ (h m hm)

/-- The volume constraint `|v - 0.3| ≤ 0.001` with the identity as volume: the gradient hypothesis is met, and the two sides of the
band are told apart. -/
example : IsGradient (n := 1) (fun x => x 0) (fun _ _ => 1) := by
  intro x d
  have : HasDerivAt (fun t : ℝ => x 0 + t * d 0) (d 0) 0 := by
    simpa using ((hasDerivAt_id (0 : ℝ)).mul_const (d 0)).const_add (x 0)
  simpa using this

example :
    let v : ConMethod ℚ ℚ := ⟨"volume", id, fun _ => 1, 3 / 10, .eq, 1 / 1000⟩
    (registered (collectConstraints [v])).map (fun r => (r.1 (29 / 100), r.2 0)) = [(-11 / 1000, 1), (9 / 1000, -1)] := by
  decide +kernel

/-! ### C71: history -/

section
variable {F V : Type*} [Ring F]

theorem dictAppend_keys {β : Type*} (h : List (String × List β)) (k : String) (v : β) :
    (dictAppend h k v).map (·.1) = h.map (·.1) := by
  unfold dictAppend
  rw [List.map_map]
  apply List.map_congr_left
  intro p _
  simp only [Function.comp]
  split_ifs <;> rfl

theorem log_column (names : List String) (hn : names.Nodup) (val : String → F) (h : List (String × List F)) :
    names.foldl (fun h n => dictAppend h n (val n)) h
      = h.map fun p => if p.1 ∈ names then (p.1, p.2 ++ [val p.1]) else p := by
  induction names generalizing h with
  | nil => simp
  | cons a l ih =>
    rw [List.foldl_cons, ih (List.nodup_cons.1 hn).2]
    unfold dictAppend
    rw [List.map_map]
    apply List.map_congr_left
    intro p _
    simp only [Function.comp]
    by_cases hp : p.1 = a
    · have : a ∉ l := (List.nodup_cons.1 hn).1
      simp [hp, this]
    · simp [hp]

theorem conVals_eq (es : List (ConEntry F V)) (hn : (es.map (·.name)).Nodup) (e : ConEntry F V) (he : e ∈ es) (x : V) :
    conVals es x e.name = e.fn x := by
  unfold conVals
  have : es.reverse.find? (fun e' => decide (e'.name = e.name)) = some e := by
    cases hf : es.reverse.find? (fun e' => decide (e'.name = e.name)) with
    | none =>
      have := List.find?_eq_none.1 hf e (List.mem_reverse.2 he)
      simp at this
    | some e' =>
      have h1 := List.find?_some hf
      have h2 := List.mem_reverse.1 (List.mem_of_find?_eq_some hf)
      simp only [decide_eq_true_eq] at h1
      rw [List.inj_on_of_nodup_map hn h2 he h1]
  rw [this]
  rfl

/-- **C71, partial.** If the names of the constraints, the added `_lb` names included, are distinct, the history has one column for
each constraint entry, whose entries are its values at the evaluated designs, in order. Missing: colliding names, see below. -/
theorem C71_history_partial (es : List (ConEntry F V)) (hn : (es.map (·.name)).Nodup) (xs : List V) :
    historyAfter es xs = es.map fun e => (e.name, xs.map e.fn) := by
  unfold historyAfter
  induction xs using List.reverseRecOn with
  | nil =>
    unfold initHistory
    rw [List.foldl_nil, hn.dedup, List.map_map]
    rfl
  | append_singleton l a ih =>
    rw [List.foldl_append, ih]
    simp only [List.foldl_cons, List.foldl_nil]
    unfold logEvaluation
    rw [log_column _ hn (conVals es a), List.map_map]
    apply List.map_congr_left
    intro e he
    simp only [Function.comp]
    rw [if_pos (List.mem_map_of_mem he), conVals_eq es hn e he a, List.map_append]
    rfl

end

/-- **C71 fails.** An equality constraint `volume` and another constraint named `volume_lb` share a history column, which gets two
entries, both of the same constraint, per evaluation. -/
theorem C71_colliding_names :
    let ms : List (ConMethod ℚ ℚ) := [⟨"volume", id, fun _ => 1, 3 / 10, .eq, 0⟩, ⟨"volume_lb", fun x => 2 * x, fun _ => 2, 1, .le, 0⟩]
    (ms.map (·.name)).Nodup ∧
      historyAfter (collectConstraints ms) [5] = [("volume", [5]), ("volume_lb", [10, 10])] := by
  decide +kernel

/-- One equality and one inequality constraint have distinct names. -/
example :
    let ms : List (ConMethod ℚ ℚ) := [⟨"volume", id, fun _ => 1, 3 / 10, .eq, 0⟩, ⟨"stress", fun x => 2 * x, fun _ => 2, 1, .le, 0⟩]
    ((collectConstraints ms).map (·.name)).Nodup ∧
      historyAfter (collectConstraints ms) [5, 6] = [("volume", [5, 6]), ("volume_lb", [5, 6]), ("stress", [10, 12])] := by
  decide +kernel

/-! ### C72: passive regions and the initial design -/

section
variable {F : Type*}

theorem foldl_set_getElem? (idx : List ℕ) (v : F) (x : List F) (i : ℕ) :
    (idx.foldl (fun l i => l.set i v) x)[i]? = if i ∈ idx ∧ i < x.length then some v else x[i]? := by
  induction idx generalizing x with
  | nil => simp
  | cons a l ih =>
    rw [List.foldl_cons, ih, List.length_set, List.getElem?_set]
    by_cases h1 : i ∈ l
    · by_cases h2 : i < x.length
      · simp [h1, h2]
      · have : x[i]? = none := List.getElem?_eq_none (by omega)
        simp [h2, this]
        omega
    · by_cases h3 : a = i
      · subst h3
        by_cases h2 : a < x.length
        · simp [h1, h2]
        · have : x[a]? = none := List.getElem?_eq_none (by omega)
          simp [h1, h2]
      · simp [h1, h3, Ne.symm h3]

theorem foldl_set_length (idx : List ℕ) (v : F) (x : List F) : (idx.foldl (fun l i => l.set i v) x).length = x.length := by
  induction idx generalizing x with
  | nil => rfl
  | cons a l ih => rw [List.foldl_cons, ih, List.length_set]

theorem assignAll_spec (x : List F) (idx : List ℕ) (v : F) (y : List F) (h : assignAll x idx v = .ok y) :
    y.length = x.length ∧ ∀ i, y[i]? = if i ∈ idx ∧ i < x.length then some v else x[i]? := by
  unfold assignAll at h
  split_ifs at h
  rw [Except.ok.injEq] at h
  subst h
  exact ⟨foldl_set_length _ _ _, foldl_set_getElem? _ _ _⟩

theorem assignAll_ok (x : List F) (idx : List ℕ) (v : F) (h : ∀ i ∈ idx, i < x.length) : ∃ y, assignAll x idx v = .ok y := by
  unfold assignAll
  rw [if_pos (by rw [List.all_eq_true]; intro i hi; exact decide_eq_true (h i hi))]
  exact ⟨_, rfl⟩

variable [One F]

/-- Specification: what a node may be. Void wins over solid, solid over the general bounds. -/
def allowed (bounds : F × F) (solid void : List ℕ) (i : ℕ) : F × F :=
  if i ∈ void then (bounds.1, bounds.1) else if i ∈ solid then (1, 1) else bounds

/-- **C72.** On the first mesh the bounds handed to the optimiser pin exactly the passive nodes: solid at one, void at the lower
bound; all other nodes get `rho_bounds`. -/
theorem C72_bounds (n : ℕ) (bounds : F × F) (solid void : List ℕ) (hs : ∀ i ∈ solid, i < n) (hv : ∀ i ∈ void, i < n) :
    ∃ lo hi, mmaBounds n n bounds solid void = .ok (lo, hi) ∧ lo.length = n ∧ hi.length = n ∧
      ∀ i < n, lo[i]? = some (allowed bounds solid void i).1 ∧ hi[i]? = some (allowed bounds solid void i).2 := by
  obtain ⟨h1, e1⟩ := assignAll_ok (List.replicate n bounds.2) solid 1 (by simpa using hs)
  obtain ⟨l1, e2⟩ := assignAll_ok (List.replicate n bounds.1) solid 1 (by simpa using hs)
  have s1 := assignAll_spec _ _ _ _ e1
  have s2 := assignAll_spec _ _ _ _ e2
  rw [List.length_replicate] at s1 s2
  obtain ⟨h2, e3⟩ := assignAll_ok h1 void bounds.1 (by rw [s1.1]; exact hv)
  obtain ⟨l2, e4⟩ := assignAll_ok l1 void bounds.1 (by rw [s2.1]; exact hv)
  have s3 := assignAll_spec _ _ _ _ e3
  have s4 := assignAll_spec _ _ _ _ e4
  refine ⟨l2, h2, ?_, by rw [s4.1, s2.1], by rw [s3.1, s1.1], ?_⟩
  · unfold mmaBounds
    simp only [if_true, e1, e2, e3, e4, bind, Except.bind, pure, Except.pure]
  · intro i hi
    rw [s4.2, s3.2, s2.2, s1.2, s1.1, s2.1]
    unfold allowed
    by_cases hv' : i ∈ void
    · simp [hv', hi]
    · by_cases hs' : i ∈ solid
      · simp [hv', hs', hi]
      · simp [hv', hs', List.getElem?_replicate, hi]

/-- **C72.** On a mesh with another number of nodes every node gets `rho_bounds`. -/
theorem C72_bounds_after_remesh (n n0 : ℕ) (hn : n ≠ n0) (bounds : F × F) (solid void : List ℕ) :
    mmaBounds n n0 bounds solid void = .ok (List.replicate n bounds.1, List.replicate n bounds.2) := by
  unfold mmaBounds
  rw [if_neg hn]
  rfl

/-- **C72, partial.** If the design one starts from is within `rho_bounds`, the initial design is within the bounds handed to the
optimiser: it equals the pinned value at passive nodes and is unchanged elsewhere. Missing: the default design, which may be out of
bounds, see below. -/
theorem C72_initial_partial [LinearOrder F] (x : List F) (bounds : F × F) (solid void : List ℕ)
    (hs : ∀ i ∈ solid, i < x.length) (hv : ∀ i ∈ void, i < x.length) (hx : ∀ y ∈ x, bounds.1 ≤ y ∧ y ≤ bounds.2) :
    ∃ x', pinInitial x solid void bounds.1 = .ok x' ∧ x'.length = x.length ∧
      ∀ i < x.length, ∃ y, x'[i]? = some y ∧ (allowed bounds solid void i).1 ≤ y ∧ y ≤ (allowed bounds solid void i).2 ∧
        (i ∉ solid → i ∉ void → x[i]? = some y) := by
  obtain ⟨x1, e1⟩ := assignAll_ok x solid 1 hs
  have s1 := assignAll_spec _ _ _ _ e1
  obtain ⟨x2, e2⟩ := assignAll_ok x1 void bounds.1 (by rw [s1.1]; exact hv)
  have s2 := assignAll_spec _ _ _ _ e2
  refine ⟨x2, ?_, by rw [s2.1, s1.1], ?_⟩
  · unfold pinInitial
    simp only [e1, e2, bind, Except.bind]
  · intro i hi
    rw [s2.2, s1.2, s1.1]
    unfold allowed
    by_cases hv' : i ∈ void
    · exact ⟨bounds.1, by simp [hv', hi], by simp [hv'], by simp [hv'], fun _ h => absurd hv' h⟩
    · by_cases hs' : i ∈ solid
      · exact ⟨1, by simp [hv', hs', hi], by simp [hv', hs'], by simp [hv', hs'], fun h => absurd hs' h⟩
      · refine ⟨x[i], by simp [hv', hs', hi], ?_, ?_, fun _ _ => List.getElem?_eq_getElem hi⟩
        · simpa [hv', hs'] using (hx _ (List.getElem_mem hi)).1
        · simpa [hv', hs'] using (hx _ (List.getElem_mem hi)).2

end

/-- **C72 fails.** With a normalised constraint `f ≤ 0` and the default bounds, the default initial design is 0 everywhere, which is
below the lower bound 0.001: the optimiser rejects it. -/
theorem C72_default_design_out_of_bounds :
    let es := collectConstraints [(⟨"stress", id, fun _ => 1, 0, .le, 0⟩ : ConMethod ℚ ℚ)]
    defaultInit (1 / 2 : ℚ) es < 1 / 1000 := by
  decide +kernel

/-- **C72 fails.** A remesh that happens to keep the number of nodes pins the nodes of the new mesh that carry the old passive
indices. -/
theorem C72_stale_indices (F : Type*) [One F] (n : ℕ) (bounds : F × F) (solid void : List ℕ) (hs : ∀ i ∈ solid, i < n)
    (hv : ∀ i ∈ void, i < n) (i : ℕ) (hi : i ∈ solid) (hi' : i ∉ void) :
    ∃ lo hi', mmaBounds n n bounds solid void = .ok (lo, hi') ∧ lo[i]? = some 1 ∧ hi'[i]? = some 1 := by
  obtain ⟨lo, hi2, h1, -, -, h2⟩ := C72_bounds n bounds solid void hs hv
  have := h2 i (hs i hi)
  simp only [allowed, hi, hi', if_true, if_false] at this
  exact ⟨lo, hi2, h1, this⟩

/-- Two passive nodes among four. -/
example : pinInitial [(1 / 2 : ℚ), 1 / 2, 1 / 2, 1 / 2] [1] [3] (1 / 1000) = .ok [1 / 2, 1, 1 / 2, 1 / 1000] ∧
    mmaBounds 4 4 ((1 / 1000 : ℚ), 1) [1] [3] = .ok ([1 / 1000, 1, 1 / 1000, 1 / 1000], [1, 1, 1, 1 / 1000]) := by
  exact ⟨rfl, rfl⟩


/-- C72: the default design is uniform at the largest value not above one half and not above any upper-bound target; lower-bound
constraints do not change it. -/
theorem C72_default_design {F V : Type*} [LinearOrder F] (half : F) (es : List (ConEntry F V)) :
    defaultInit half es ≤ half ∧ (∀ e ∈ es, e.type = .le → defaultInit half es ≤ e.target) ∧
      ∀ y, y ≤ half → (∀ e ∈ es, e.type = .le → y ≤ e.target) → y ≤ defaultInit half es := by
  unfold defaultInit
  induction es generalizing half with
  | nil => exact ⟨le_rfl, by simp, fun y h _ => h⟩
  | cons e es ih =>
    rw [List.foldl_cons]
    obtain ⟨h1, h2, h3⟩ := ih (if e.type = .le then min half e.target else half)
    refine ⟨h1.trans ?_, ?_, ?_⟩
    · split_ifs
      · exact min_le_left _ _
      · exact le_rfl
    · intro e' he' ht
      rcases List.mem_cons.1 he' with rfl | he'
      · rw [if_pos ht] at h1 ⊢
        exact h1.trans (min_le_right _ _)
      · exact h2 e' he' ht
    · intro y hy hy'
      apply h3
      · split_ifs with ht
        · exact le_min hy (hy' e List.mem_cons_self ht)
        · exact hy
      · exact fun e' he' => hy' e' (List.mem_cons_of_mem _ he')

example : let es := collectConstraints [(⟨"volume", id, fun _ => 1, 3 / 10, .le, 0⟩ : ConMethod ℚ ℚ), ⟨"stiffness", id, fun _ => 1, 1 / 10, .ge, 0⟩]
    defaultInit (1 / 2 : ℚ) es = 3 / 10 := by
  decide +kernel
end Verif.Props
