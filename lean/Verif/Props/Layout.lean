import Verif.Lemmas.Jacobian
import Verif.Model.Solution

/-!
# C08, C09: DOF numbering and `Solution` views
-/

namespace Verif.Props

open Verif.Model

set_option linter.unusedSectionVars false

/-- `(i, node, comp)` names a component of a node of a variable of the problem. -/
def ValidTriple (vars : List Var) (i node comp : ℕ) : Prop :=
  i < vars.length ∧ node < (vars.getD i ⟨0, 0, 0, []⟩).numNodes ∧
    comp < (vars.getD i ⟨0, 0, 0, []⟩).vec

theorem offsets_getD (vars : List Var) (i : ℕ) (hi : i < vars.length) :
    (offsets vars).getD i 0 = ((vars.take i).map Var.numDofs).sum := by
  have key : ∀ acc, (offsetsFrom acc vars).getD i 0 = acc + ((vars.take i).map Var.numDofs).sum := by
    induction vars generalizing i with
    | nil => simp at hi
    | cons v vs ih =>
      intro acc
      cases i with
      | zero => simp [offsetsFrom]
      | succ i =>
        simp only [offsetsFrom, List.getD_cons_succ, List.take_succ_cons, List.map_cons,
          List.sum_cons]
        rw [ih i (by simpa using hi)]; omega
  have := key 0
  rw [Nat.zero_add] at this
  exact this

theorem dof_decomp (vars : List Var) (k : ℕ) (hk : k < numDofs vars) :
    ∃ i node comp, ValidTriple vars i node comp ∧ Spec.dofNumber (fields vars) i node comp = k := by
  induction vars generalizing k with
  | nil => simp [numDofs] at hk
  | cons v vs ih =>
    by_cases h : k < v.numDofs
    · have hv : 0 < v.vec := by
        rcases Nat.eq_zero_or_pos v.vec with h0 | h0
        · simp [Var.numDofs, h0] at h
        · exact h0
      refine ⟨0, k / v.vec, k % v.vec, ⟨by simp, ?_, ?_⟩, ?_⟩
      · exact Nat.div_lt_of_lt_mul (by rw [Nat.mul_comm]; exact h)
      · exact Nat.mod_lt _ hv
      · rw [dofNumber_fields]
        simp only [List.take_zero, List.map_nil, List.sum_nil, List.getD_cons_zero, Nat.zero_add]
        rw [Nat.mul_comm]; exact Nat.div_add_mod k v.vec
    · have hk' : k - v.numDofs < numDofs vs := by
        simp only [numDofs, List.map_cons, List.sum_cons] at hk ⊢; omega
      obtain ⟨i, node, comp, ⟨h1, h2, h3⟩, h4⟩ := ih _ hk'
      refine ⟨i + 1, node, comp, ⟨by simpa using h1, by simpa using h2, by simpa using h3⟩, ?_⟩
      rw [dofNumber_fields] at h4 ⊢
      simp only [List.take_succ_cons, List.map_cons, List.sum_cons, List.getD_cons_succ]
      omega

theorem dof_inj (vars : List Var) {i node comp i' node' comp' : ℕ}
    (h : ValidTriple vars i node comp) (h' : ValidTriple vars i' node' comp')
    (e : Spec.dofNumber (fields vars) i node comp = Spec.dofNumber (fields vars) i' node' comp') :
    i = i' ∧ node = node' ∧ comp = comp' := by
  induction vars generalizing i i' with
  | nil => exact absurd h.1 (by simp)
  | cons v vs ih =>
    have bound : ∀ node comp, node < v.numNodes → comp < v.vec →
        node * v.vec + comp < v.numDofs := by
      intro node comp hn hc
      unfold Var.numDofs
      calc node * v.vec + comp < node * v.vec + v.vec := by omega
        _ = (node + 1) * v.vec := by ring
        _ ≤ _ := Nat.mul_le_mul_right _ hn
    rw [dofNumber_fields, dofNumber_fields] at e
    cases i with
    | zero =>
      have hb := bound node comp (by simpa using h.2.1) (by simpa using h.2.2)
      cases i' with
      | zero =>
        simp only [List.take_zero, List.map_nil, List.sum_nil, List.getD_cons_zero,
          Nat.zero_add] at e
        have hc : comp < v.vec := by simpa using h.2.2
        have hc' : comp' < v.vec := by simpa using h'.2.2
        obtain ⟨a, b⟩ := key_inj hc' hc e
        exact ⟨rfl, a, b⟩
      | succ i' =>
        simp only [List.take_zero, List.map_nil, List.sum_nil, List.getD_cons_zero, Nat.zero_add,
          List.take_succ_cons, List.map_cons, List.sum_cons] at e
        omega
    | succ i =>
      cases i' with
      | zero =>
        have hb := bound node' comp' (by simpa using h'.2.1) (by simpa using h'.2.2)
        simp only [List.take_zero, List.map_nil, List.sum_nil, List.getD_cons_zero, Nat.zero_add,
          List.take_succ_cons, List.map_cons, List.sum_cons] at e
        omega
      | succ i' =>
        simp only [List.take_succ_cons, List.map_cons, List.sum_cons, List.getD_cons_succ] at e
        have := ih (i := i) (i' := i')
          ⟨by simpa using h.1, by simpa using h.2.1, by simpa using h.2.2⟩
          ⟨by simpa using h'.1, by simpa using h'.2.1, by simpa using h'.2.2⟩
          (by rw [dofNumber_fields, dofNumber_fields]; omega)
        exact ⟨by omega, this.2⟩

theorem dofNumber_eq_offset (vars : List Var) {i node comp : ℕ} (hi : i < vars.length) :
    Spec.dofNumber (fields vars) i node comp
      = (vars.getD i ⟨0, 0, 0, []⟩).vec * node + comp + (offsets vars).getD i 0 := by
  rw [dofNumber_fields, offsets_getD _ _ hi]; ring

/-- **C08** (numbering): with feax's offsets, `vec * node + comp + offset[i]` numbers the
(variable, node, component) triples one-to-one onto `0 .. total-1`. -/
theorem C08_numbering_bijective (vars : List Var) :
    (∀ i node comp, ValidTriple vars i node comp →
      (vars.getD i ⟨0, 0, 0, []⟩).vec * node + comp + (offsets vars).getD i 0 < numDofs vars) ∧
    (∀ i node comp i' node' comp', ValidTriple vars i node comp → ValidTriple vars i' node' comp' →
      (vars.getD i ⟨0, 0, 0, []⟩).vec * node + comp + (offsets vars).getD i 0
        = (vars.getD i' ⟨0, 0, 0, []⟩).vec * node' + comp' + (offsets vars).getD i' 0 →
      i = i' ∧ node = node' ∧ comp = comp') ∧
    (∀ k < numDofs vars, ∃ i node comp, ValidTriple vars i node comp ∧
      (vars.getD i ⟨0, 0, 0, []⟩).vec * node + comp + (offsets vars).getD i 0 = k) := by
  refine ⟨?_, ?_, ?_⟩
  · intro i node comp h
    rw [← dofNumber_eq_offset vars h.1]
    exact dofNumber_lt vars h.1 h.2.1 h.2.2
  · intro i node comp i' node' comp' h h' e
    rw [← dofNumber_eq_offset vars h.1, ← dofNumber_eq_offset vars h'.1] at e
    exact dof_inj vars h h' e
  · intro k hk
    obtain ⟨i, node, comp, h, e⟩ := dof_decomp vars k hk
    exact ⟨i, node, comp, h, by rw [← dofNumber_eq_offset vars h.1]; exact e⟩

/-- **C08** (index array): row `c` of the per-cell index array lists, field by field, node by node
and component by component, the DOF numbers of the nodes of cell `c`. -/
theorem C08_cell_index_array (p : Problem) (c : ℕ) (hc : c < p.numCells) :
    p.volInds.getD c [] = Spec.elemDofs (fields p.vars) (p.vars.map (fun v => v.cells.getD c [])) := by
  rw [← cellDofs_eq_spec]
  simp [Problem.volInds, buildInds, List.getD_eq_getElem?_getD, hc]

/-- **C08** (gather): what a kernel receives as its local solution is the flat solution read at the
index array. -/
theorem C08_gather_matches_index_array {α : Type*} (d : α) (p : Problem) (h : p.WF) (flat : List α)
    (hl : flat.length = p.n) (c : ℕ) (hc : c < p.numCells) :
    cellSol p.vars (unflatten p.vars flat) c
      = (Spec.elemDofs (fields p.vars) (p.vars.map (fun v => v.cells.getD c []))).map
          (fun k => flat.getD k d) := by
  rw [cellSol_eq_gather d p.vars flat p.numCells c h.vars hc hl, cellDofs_eq_spec]
  rfl

/-! ## C09 -/

section C09

variable {α : Type*}

theorem sizes_take (vars : List Var) (i : ℕ) :
    (((vars.map (fun v => (v.numNodes, v.vec))).map (fun p : ℕ × ℕ => p.1 * p.2)).take i).sum
      = ((vars.take i).map Var.numDofs).sum := by
  rw [List.map_map, ← List.map_take]
  rfl

theorem offset_fromProblem (vars : List Var) (flat : List α) (i : ℕ) (hi : i < vars.length) :
    (Solution.fromProblem vars flat).offset (.int i)
      = .ok (((vars.take i).map Var.numDofs).sum, (vars.getD i ⟨0, 0, 0, []⟩).numNodes,
          (vars.getD i ⟨0, 0, 0, []⟩).vec) := by
  unfold Solution.offset Solution.fromProblem
  have hcond : (0 : ℤ) ≤ (i : ℤ) ∧
      (i : ℤ) < ((vars.map (fun v => (v.numNodes, v.vec))).length : ℕ) := by
    simp only [List.length_map]; omega
  have hlay : (vars.map (fun v => (v.numNodes, v.vec))).getD i (0, 0)
      = ((vars.getD i ⟨0, 0, 0, []⟩).numNodes, (vars.getD i ⟨0, 0, 0, []⟩).vec) := by
    simp [List.getD_eq_getElem?_getD, hi]
  simp only
  rw [if_pos hcond, Int.toNat_natCast, hlay, sizes_take]

theorem field_fromProblem (vars : List Var) (flat : List α) (i : ℕ) (hi : i < vars.length) :
    (Solution.fromProblem vars flat).field (.int i)
      = .ok (reshapeRows (vars.getD i ⟨0, 0, 0, []⟩).numNodes (vars.getD i ⟨0, 0, 0, []⟩).vec
          ((flat.drop ((vars.take i).map Var.numDofs).sum).take
            (vars.getD i ⟨0, 0, 0, []⟩).numDofs)) := by
  unfold Solution.field
  rw [offset_fromProblem vars flat i hi]
  rfl

theorem field_entry (d : α) (vars : List Var) (flat : List α) (hl : flat.length = numDofs vars)
    (i : ℕ) (hi : i < vars.length) (rows : List (List α))
    (hf : (Solution.fromProblem vars flat).field (.int i) = .ok rows) :
    rows = (List.range (vars.getD i ⟨0, 0, 0, []⟩).numNodes).map (fun node =>
      (List.range (vars.getD i ⟨0, 0, 0, []⟩).vec).map (fun comp =>
        flat.getD (Spec.dofNumber (fields vars) i node comp) d)) := by
  rw [field_fromProblem vars flat i hi] at hf
  simp only [Except.ok.injEq] at hf
  rw [← hf]
  unfold reshapeRows
  apply List.map_congr_left
  intro node hnode
  have hn : node < (vars.getD i ⟨0, 0, 0, []⟩).numNodes := by simpa using hnode
  set v := vars.getD i ⟨0, 0, 0, []⟩ with hv
  have h1 := sum_take_le vars i hi
  rw [← hv] at h1
  have hb : node * v.vec + v.vec ≤ v.numNodes * v.vec := by
    calc node * v.vec + v.vec = (node + 1) * v.vec := by ring
      _ ≤ _ := Nat.mul_le_mul_right _ hn
  have h2 : v.numDofs = v.numNodes * v.vec := rfl
  apply List.ext_getElem
  · simp only [List.length_take, List.length_drop, List.length_map, List.length_range]
    omega
  · intro k k1 k2
    have hk : k < v.vec := by simpa using k2
    simp only [List.getElem_take, List.getElem_drop, List.getElem_map, List.getElem_range]
    have hlt : Spec.dofNumber (fields vars) i node k < flat.length := by
      rw [hl]; exact dofNumber_lt vars hi hn hk
    rw [List.getD_eq_getElem _ _ hlt]
    congr 1
    rw [dofNumber_fields]

/-- **C09** (`field`): for a valid index the returned array has, at `[node][comp]`, the flat entry
numbered for that variable, node and component; it never fails. -/
theorem C09_field_entries (d : α) (vars : List Var) (flat : List α)
    (hl : flat.length = numDofs vars) (i : ℕ) (hi : i < vars.length) :
    (Solution.fromProblem vars flat).field (.int i)
      = .ok ((List.range (vars.getD i ⟨0, 0, 0, []⟩).numNodes).map (fun node =>
          (List.range (vars.getD i ⟨0, 0, 0, []⟩).vec).map (fun comp =>
            flat.getD (Spec.dofNumber (fields vars) i node comp) d))) := by
  cases hf : (Solution.fromProblem vars flat).field (.int i) with
  | error e =>
    rw [field_fromProblem vars flat i hi] at hf
    cases hf
  | ok rows => rw [field_entry d vars flat hl i hi rows hf]

/-- **C09** (`field` is `unflatten_fn_sol_list(...)[i]`). -/
theorem C09_field_eq_unflatten (vars : List Var) (flat : List α) (i : ℕ) (hi : i < vars.length) :
    (Solution.fromProblem vars flat).field (.int i) = .ok ((unflatten vars flat).getD i []) := by
  have aux : ∀ (vars : List Var) (flat : List α) (i : ℕ), i < vars.length →
      (unflatten vars flat).getD i [] = reshapeRows (vars.getD i ⟨0, 0, 0, []⟩).numNodes
        (vars.getD i ⟨0, 0, 0, []⟩).vec ((flat.drop ((vars.take i).map Var.numDofs).sum).take
          (vars.getD i ⟨0, 0, 0, []⟩).numDofs) := by
    intro vars
    induction vars with
    | nil => intro _ i hi; simp at hi
    | cons v vs ih =>
      intro flat i hi
      cases i with
      | zero => simp [unflatten]
      | succ i =>
        simp only [unflatten, List.getD_cons_succ, List.take_succ_cons, List.map_cons,
          List.sum_cons]
        rw [ih _ i (by simpa using hi), List.drop_drop]
  rw [aux vars flat i hi, field_fromProblem vars flat i hi]

/-- **C09** (nothing lost): flattening and concatenating the views of all variables gives the flat
vector back. -/
theorem C09_concat_fields (vars : List Var) (flat : List α) (hl : flat.length = numDofs vars)
    (views : List (List (List α)))
    (hv : views.length = vars.length ∧ ∀ i < vars.length,
      (Solution.fromProblem vars flat).field (.int i) = .ok (views.getD i [])) :
    (views.map List.flatten).flatten = flat := by
  have : views = unflatten vars flat := by
    have hlen : (unflatten vars flat).length = vars.length := by
      clear hl hv
      induction vars generalizing flat with
      | nil => rfl
      | cons v vs ih => simp [unflatten, ih]
    apply List.ext_getElem (by rw [hv.1, hlen])
    intro i h1 h2
    have hi : i < vars.length := by omega
    have e := hv.2 i hi
    rw [C09_field_eq_unflatten vars flat i hi] at e
    simp only [Except.ok.injEq] at e
    rw [List.getD_eq_getElem _ _ h1, List.getD_eq_getElem _ _ h2] at e
    exact e.symm
  rw [this]
  exact ravel_unflatten vars flat hl

/-- **C09** (`node_var`): component `comp` of a vector field is that component at every node. -/
theorem C09_node_var_component [Inhabited α] (vars : List Var) (flat : List α)
    (hl : flat.length = numDofs vars) (i : ℕ) (hi : i < vars.length) (comp : ℕ)
    (hc : comp < (vars.getD i ⟨0, 0, 0, []⟩).vec) :
    (Solution.fromProblem vars flat).nodeVar (some (comp : ℤ)) (.int i)
      = .ok ((List.range (vars.getD i ⟨0, 0, 0, []⟩).numNodes).map (fun node =>
          flat.getD (Spec.dofNumber (fields vars) i node comp) default)) := by
  unfold Solution.nodeVar
  rw [C09_field_entries default vars flat hl i hi]
  rw [offset_fromProblem vars flat i hi]
  simp only [List.map_map]
  have hji : Solution.jaxIndex (vars.getD i ⟨0, 0, 0, []⟩).vec (comp : ℤ) = comp := by
    unfold Solution.jaxIndex
    have : ¬ ((comp : ℤ) < 0) := by omega
    simp only [this, if_false, Int.toNat_natCast]; omega
  split_ifs with h1
  · congr 1
    apply List.map_congr_left
    intro node _
    have h0 : comp = 0 := by omega
    subst h0
    simp only [Function.comp]
    rw [List.getD_eq_getElem _ _ (by simpa using hc)]
    simp
  · rw [hji]
    congr 1
    apply List.map_congr_left
    intro node _
    simp only [Function.comp]
    rw [List.getD_eq_getElem _ _ (by simpa using hc)]
    simp

/-- **C09** (errors): a non-integer index is a `TypeError`, an integer outside `0..len-1` (negative
included) an `IndexError`, for both accessors; a missing component on a field with more than one
component is a `ValueError`. -/
theorem C09_errors [Inhabited α] (s : Solution α) (c : Option ℤ) :
    s.field .other = .error .typeError ∧ s.nodeVar c .other = .error .typeError ∧
    (∀ z : ℤ, (z < 0 ∨ (s.layout.length : ℤ) ≤ z) →
      s.field (.int z) = .error .indexError ∧ s.nodeVar c (.int z) = .error .indexError) ∧
    (∀ i : ℕ, i < s.layout.length → (s.layout.getD i (0, 0)).2 ≠ 1 →
      s.nodeVar none (.int i) = .error .valueError) := by
  refine ⟨rfl, rfl, ?_, ?_⟩
  · intro z hz
    have ho : s.offset (.int z) = .error .indexError := by
      unfold Solution.offset
      simp only
      rw [if_neg (by omega)]
    constructor
    · unfold Solution.field; rw [ho]
    · unfold Solution.nodeVar; rw [ho]
  · intro i hi h1
    have ho : s.offset (.int i) = .ok (((s.layout.map (fun p => p.1 * p.2)).take i).sum,
        s.layout.getD i (0, 0)) := by
      unfold Solution.offset
      have : (0 : ℤ) ≤ (i : ℤ) ∧ (i : ℤ) < s.layout.length := by omega
      simp only
      rw [if_pos this, Int.toNat_natCast]
    unfold Solution.nodeVar Solution.field
    rw [ho]
    simp only [h1, if_false]

/-- **C09** (caveat, proved of the code): an out-of-range *component* is not rejected; JAX clamps it,
so component 7 of a 2-component field silently returns component 1. -/
theorem C09_component_out_of_range_not_rejected :
    (Solution.fromProblem [⟨2, 2, 1, [[0], [1]]⟩] [10, 11, 20, 21]).nodeVar (some 7) (.int 0)
      = .ok [11, 21] := by decide

end C09

/-! ## Concrete cases -/

/-- A 2-component field and a scalar field on three nodes. -/
def exVars : List Var := [⟨2, 3, 2, [[0, 1], [1, 2]]⟩, ⟨1, 3, 2, [[0, 1], [1, 2]]⟩]

example : ValidTriple exVars 1 2 0 := ⟨by decide, by decide, by decide⟩
example : offsets exVars = [0, 6] ∧ numDofs exVars = 9 := by decide
example := C09_field_entries (0 : ℤ) exVars [1, 2, 3, 4, 5, 6, 7, 8, 9] (by decide) 1 (by decide)
example : (Solution.fromProblem exVars [1, 2, 3, 4, 5, 6, 7, 8, 9]).field (.int 0)
    = .ok [[1, 2], [3, 4], [5, 6]] := by decide
example : (Solution.fromProblem exVars [1, 2, 3, 4, 5, 6, 7, 8, 9]).nodeVar (some 1) (.int 0)
    = .ok [2, 4, 6] := by decide
example := C09_node_var_component exVars [1, 2, 3, 4, 5, 6, 7, 8, 9] (by decide) 0 (by decide) 1
  (by decide)
example := C09_concat_fields exVars [1, 2, 3, 4, 5, 6, 7, 8, 9] (by decide)
  [[[1, 2], [3, 4], [5, 6]], [[7], [8], [9]]]
  ⟨rfl, by
    intro i hi
    have : i = 0 ∨ i = 1 := by simp [exVars] at hi; omega
    rcases this with rfl | rfl <;> decide⟩
example : buildInds exVars 2 = [[0, 1, 2, 3, 6, 7], [2, 3, 4, 5, 7, 8]] := by decide

end Verif.Props
