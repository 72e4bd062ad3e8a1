import Verif.Model.Layout
import Verif.Spec.Assembly
import Verif.Lemmas.Assembly

/-! # Facts about the DOF layout (proof machinery) -/

namespace Verif.Model

/-- A variable viewed as a specification field. -/
def Var.field (v : Var) : Spec.Field := ⟨v.vec, v.numNodes⟩

/-- The variables viewed as specification fields. -/
def fields (vars : List Var) : List Spec.Field := vars.map Var.field

/-- A variable is well formed: one row of `nn` valid nodes per cell. -/
structure Var.WF (v : Var) (numCells : ℕ) : Prop where
  rows : v.cells.length = numCells
  width : ∀ r ∈ v.cells, r.length = v.nn
  nodes : ∀ r ∈ v.cells, ∀ x ∈ r, x < v.numNodes

theorem totalDofs_fields (vars : List Var) : Spec.totalDofs (fields vars) = numDofs vars := by
  simp [Spec.totalDofs, fields, numDofs, List.map_map, Function.comp_def, Var.field]
  rfl

theorem zip_offsetsFrom (acc : ℕ) (vars : List Var) :
    vars.zip (offsetsFrom acc vars) = (List.range vars.length).map
      (fun i => (vars.getD i ⟨0, 0, 0, []⟩, acc + ((vars.take i).map Var.numDofs).sum)) := by
  induction vars generalizing acc with
  | nil => rfl
  | cons v vs ih =>
    rw [offsetsFrom, List.zip_cons_cons, ih, List.length_cons, List.range_succ_eq_map,
      List.map_cons, List.map_map]
    simp only [List.getD_cons_zero, List.take_zero, List.map_nil, List.sum_nil, Nat.add_zero,
      List.cons.injEq, true_and]
    apply List.map_congr_left
    intro i _
    simp [Nat.add_assoc]

theorem fields_getD (vars : List Var) (i : ℕ) :
    (fields vars).getD i ⟨0, 0⟩ = (vars.getD i ⟨0, 0, 0, []⟩).field := by
  simp only [fields, List.getD_eq_getElem?_getD, List.getElem?_map]
  cases vars[i]? <;> rfl

theorem dofNumber_fields (vars : List Var) (i node comp : ℕ) :
    Spec.dofNumber (fields vars) i node comp
      = ((vars.take i).map Var.numDofs).sum
        + (node * (vars.getD i ⟨0, 0, 0, []⟩).vec + comp) := by
  unfold Spec.dofNumber
  rw [fields_getD]
  simp [fields, ← List.map_take, List.map_map, Function.comp_def, Var.field]
  rfl

/-- The code's element DOF row is the specified one. -/
theorem cellDofs_eq_spec (vars : List Var) (c : ℕ) :
    cellDofs vars c
      = Spec.elemDofs (fields vars) (vars.map (fun v => v.cells.getD c [])) := by
  unfold cellDofs Spec.elemDofs offsets
  rw [zip_offsetsFrom, List.map_map, ← List.flatMap_def]
  have : (fields vars).length = vars.length := by simp [fields]
  rw [this]
  apply List.flatMap_congr
  intro i hi
  have hi' : i < vars.length := by simpa using hi
  simp only [Function.comp, varDofs, ← List.flatMap_def]
  have e1 : (vars.map (fun v => v.cells.getD c [])).getD i []
      = (vars.getD i ⟨0, 0, 0, []⟩).cells.getD c [] := by
    simp [List.getD_eq_getElem?_getD, hi']
  rw [e1]
  apply List.flatMap_congr
  intro node _
  rw [fields_getD]
  apply List.map_congr_left
  intro comp _
  rw [dofNumber_fields]
  ring

theorem sum_take_le (vars : List Var) (i : ℕ) (hi : i < vars.length) :
    ((vars.take i).map Var.numDofs).sum + (vars.getD i ⟨0, 0, 0, []⟩).numDofs ≤ numDofs vars := by
  induction vars generalizing i with
  | nil => simp at hi
  | cons v vs ih =>
    cases i with
    | zero => simp [numDofs]
    | succ i =>
      have := ih i (by simpa using hi)
      simp only [List.take_succ_cons, List.map_cons, List.sum_cons, List.getD_cons_succ, numDofs] at *
      omega

theorem dofNumber_lt (vars : List Var) {i node comp : ℕ} (hi : i < vars.length)
    (hn : node < (vars.getD i ⟨0, 0, 0, []⟩).numNodes)
    (hc : comp < (vars.getD i ⟨0, 0, 0, []⟩).vec) :
    Spec.dofNumber (fields vars) i node comp < numDofs vars := by
  rw [dofNumber_fields]
  have h1 := sum_take_le vars i hi
  have h2 : node * (vars.getD i ⟨0, 0, 0, []⟩).vec + comp < (vars.getD i ⟨0, 0, 0, []⟩).numDofs := by
    unfold Var.numDofs
    calc node * (vars.getD i ⟨0, 0, 0, []⟩).vec + comp
        < node * (vars.getD i ⟨0, 0, 0, []⟩).vec + (vars.getD i ⟨0, 0, 0, []⟩).vec := by omega
      _ = (node + 1) * (vars.getD i ⟨0, 0, 0, []⟩).vec := by ring
      _ ≤ _ := Nat.mul_le_mul_right _ hn
  omega

theorem mem_cellDofs_lt (vars : List Var) (numCells c : ℕ) (hwf : ∀ v ∈ vars, v.WF numCells)
    (hc : c < numCells) : ∀ d ∈ cellDofs vars c, d < numDofs vars := by
  intro d hd
  rw [cellDofs_eq_spec] at hd
  simp only [Spec.elemDofs, List.mem_flatMap, List.mem_map, List.mem_range] at hd
  obtain ⟨i, hi, node, hnode, comp, hcomp, rfl⟩ := hd
  have hi' : i < vars.length := by simpa [fields] using hi
  rw [fields_getD] at hcomp
  have e1 : (vars.map (fun v => v.cells.getD c [])).getD i []
      = (vars.getD i ⟨0, 0, 0, []⟩).cells.getD c [] := by
    simp [List.getD_eq_getElem?_getD, hi']
  rw [e1] at hnode
  have hv : vars.getD i ⟨0, 0, 0, []⟩ ∈ vars := by
    rw [List.getD_eq_getElem _ _ hi']; exact List.getElem_mem hi'
  have hw := hwf _ hv
  have hc' : c < (vars.getD i ⟨0, 0, 0, []⟩).cells.length := by rw [hw.rows]; exact hc
  rw [List.getD_eq_getElem _ _ hc'] at hnode
  exact dofNumber_lt vars hi' (hw.nodes _ (List.getElem_mem hc') _ hnode) hcomp

theorem varDofs_length (vec off : ℕ) (nodes : List ℕ) :
    (varDofs vec off nodes).length = nodes.length * vec := by
  unfold varDofs
  rw [flatten_length_uniform vec]
  · simp
  · intro xs hx; simp only [List.mem_map] at hx; obtain ⟨a, _, rfl⟩ := hx; simp

theorem cellDofs_length (vars : List Var) (numCells c : ℕ) (hwf : ∀ v ∈ vars, v.WF numCells)
    (hc : c < numCells) : (cellDofs vars c).length = (vars.map (fun v => v.nn * v.vec)).sum := by
  unfold cellDofs offsets
  rw [zip_offsetsFrom, List.length_flatten, List.map_map, List.map_map]
  have : vars.map (fun v => v.nn * v.vec) = (List.range vars.length).map
      (fun i => (vars.getD i ⟨0, 0, 0, []⟩).nn * (vars.getD i ⟨0, 0, 0, []⟩).vec) := by
    apply List.ext_getElem
    · simp
    · intro i h1 h2
      have : i < vars.length := by simpa using h1
      simp [List.getD_eq_getElem?_getD, this]
  rw [this]
  congr 1
  apply List.map_congr_left
  intro i hi
  have hi' : i < vars.length := by simpa using hi
  have hv : vars.getD i ⟨0, 0, 0, []⟩ ∈ vars := by
    rw [List.getD_eq_getElem _ _ hi']; exact List.getElem_mem hi'
  have hw := hwf _ hv
  have hc' : c < (vars.getD i ⟨0, 0, 0, []⟩).cells.length := by rw [hw.rows]; exact hc
  simp only [Function.comp, varDofs_length]
  rw [List.getD_eq_getElem _ _ hc', hw.width _ (List.getElem_mem hc')]

/-! ## Splitting and flattening -/

theorem ravel_unflatten {α : Type*} (vars : List Var) (flat : List α)
    (h : flat.length = numDofs vars) : ravel (unflatten vars flat) = flat := by
  induction vars generalizing flat with
  | nil =>
    have : flat = [] := by simpa [numDofs] using h
    subst this; rfl
  | cons v vs ih =>
    simp only [numDofs, List.map_cons, List.sum_cons] at h
    have e := ih (flat.drop v.numDofs) (by rw [List.length_drop, h]; simp [numDofs])
    simp only [ravel, unflatten, List.map_cons, List.flatten_cons] at *
    rw [e, reshapeRows_flatten, List.take_append_drop]
    rw [List.length_take, h]; unfold Var.numDofs; omega

theorem reshapeRows_getD {α : Type*} (rows cols : ℕ) (xs : List α) (i : ℕ) (hi : i < rows) :
    (reshapeRows rows cols xs).getD i [] = (xs.drop (i * cols)).take cols := by
  simp [reshapeRows, List.getD_eq_getElem?_getD, hi]

/-- Row `node` of variable `i` after splitting is the slice of the flat vector at its DOF numbers. -/
theorem unflatten_row {α : Type*} (d : α) (vars : List Var) (flat : List α)
    (h : flat.length = numDofs vars) (i node : ℕ) (hi : i < vars.length)
    (hn : node < (vars.getD i ⟨0, 0, 0, []⟩).numNodes) :
    ((unflatten vars flat).getD i []).getD node []
      = (List.range (vars.getD i ⟨0, 0, 0, []⟩).vec).map
          (fun comp => flat.getD (Spec.dofNumber (fields vars) i node comp) d) := by
  induction vars generalizing flat i with
  | nil => simp at hi
  | cons v vs ih =>
    simp only [numDofs, List.map_cons, List.sum_cons] at h
    cases i with
    | zero =>
      simp only [List.getD_cons_zero] at hn ⊢
      simp only [unflatten, List.getD_cons_zero]
      rw [reshapeRows_getD _ _ _ _ hn]
      have hb : node * v.vec + v.vec ≤ v.numDofs := by
        unfold Var.numDofs
        calc node * v.vec + v.vec = (node + 1) * v.vec := by ring
          _ ≤ _ := Nat.mul_le_mul_right _ hn
      have hl : v.numDofs ≤ flat.length := by omega
      apply List.ext_getElem
      · simp; omega
      · intro k h1 h2
        have hk : k < v.vec := by simpa using h2
        have hlt : node * v.vec + k < flat.length := by omega
        simp only [List.getElem_take, List.getElem_drop, List.getElem_map, List.getElem_range,
          dofNumber_fields, List.take_zero, List.map_nil, List.sum_nil, List.getD_cons_zero,
          Nat.zero_add]
        rw [List.getD_eq_getElem _ _ hlt]
    | succ i =>
      simp only [List.getD_cons_succ] at hn ⊢
      simp only [unflatten, List.getD_cons_succ]
      rw [ih (flat.drop v.numDofs) (by rw [List.length_drop, h]; simp [numDofs]) i
        (by simpa using hi) hn]
      apply List.map_congr_left
      intro comp hcomp
      rw [dofNumber_fields, dofNumber_fields]
      simp only [List.take_succ_cons, List.map_cons, List.sum_cons, List.getD_cons_succ]
      simp only [List.getD_eq_getElem?_getD, List.getElem?_drop]
      congr 2; omega

/-- The local solution vector handed to a kernel is the gather of the flat solution at the
element's DOFs. -/
theorem cellSol_eq_gather {α : Type*} (d : α) (vars : List Var) (flat : List α) (numCells c : ℕ)
    (hwf : ∀ v ∈ vars, v.WF numCells) (hc : c < numCells) (h : flat.length = numDofs vars) :
    cellSol vars (unflatten vars flat) c = gather d flat (cellDofs vars c) := by
  have hlen : (unflatten vars flat).length = vars.length := by
    clear hwf h
    induction vars generalizing flat with
    | nil => rfl
    | cons v vs ih => simp [unflatten, ih]
  have hz : vars.zip (unflatten vars flat) = (List.range vars.length).map
      (fun i => (vars.getD i ⟨0, 0, 0, []⟩, (unflatten vars flat).getD i [])) := by
    apply List.ext_getElem
    · simp [hlen]
    · intro i h1 h2
      have hi : i < vars.length := by simpa using h2
      have hi2 : i < (unflatten vars flat).length := by omega
      simp [List.getD_eq_getElem?_getD, hi, hi2]
  unfold cellSol
  rw [hz, List.map_map, cellDofs_eq_spec, ← List.flatMap_def]
  unfold gather Spec.elemDofs
  rw [List.map_flatMap]
  have : (fields vars).length = vars.length := by simp [fields]
  rw [this]
  apply List.flatMap_congr
  intro i hi
  have hi' : i < vars.length := by simpa using hi
  have hv : vars.getD i ⟨0, 0, 0, []⟩ ∈ vars := by
    rw [List.getD_eq_getElem _ _ hi']; exact List.getElem_mem hi'
  have hw := hwf _ hv
  have e1 : (vars.map (fun v => v.cells.getD c [])).getD i []
      = (vars.getD i ⟨0, 0, 0, []⟩).cells.getD c [] := by
    simp [List.getD_eq_getElem?_getD, hi']
  rw [e1, List.map_flatMap]
  simp only [Function.comp]
  rw [← List.flatMap_def]
  apply List.flatMap_congr
  intro node hnode
  have hc' : c < (vars.getD i ⟨0, 0, 0, []⟩).cells.length := by rw [hw.rows]; exact hc
  rw [List.getD_eq_getElem _ _ hc'] at hnode
  rw [unflatten_row d vars flat h i node hi' (hw.nodes _ (List.getElem_mem hc') _ hnode),
    fields_getD, List.map_map]
  rfl

end Verif.Model
