import Mathlib.Algebra.BigOperators.Group.List.Basic
import Mathlib.Algebra.BigOperators.Group.Finset.Basic
import Mathlib.Algebra.Ring.Defs

/-!
# Specification of finite-element assembly

Textbook definitions, written without any of the model's index machinery.
-/

namespace Verif.Spec

/-- A field variable of a problem: components per node and number of mesh nodes. -/
structure Field where
  vec : ℕ
  numNodes : ℕ

/-- Global DOF number of component `comp` of node `node` of field `i`: all DOFs of the earlier
fields, then node-major within the field. -/
def dofNumber (fs : List Field) (i node comp : ℕ) : ℕ :=
  ((fs.take i).map (fun f => f.numNodes * f.vec)).sum + (node * (fs.getD i ⟨0, 0⟩).vec + comp)

/-- Total number of DOFs. -/
def totalDofs (fs : List Field) : ℕ := (fs.map (fun f => f.numNodes * f.vec)).sum

/-- DOFs of an element whose nodes, field by field, are `nodes`: field-major, then node, then
component. -/
def elemDofs (fs : List Field) (nodes : List (List ℕ)) : List ℕ :=
  (List.range fs.length).flatMap (fun i =>
    (nodes.getD i []).flatMap (fun node =>
      (List.range (fs.getD i ⟨0, 0⟩).vec).map (fun comp => dofNumber fs i node comp)))

/-- An element contribution: global DOF of each local DOF, local residual, local tangent (row-major). -/
structure Elem (R : Type*) where
  dofs : List ℕ
  res : List R
  jac : List R

variable {R : Type*} [AddCommMonoid R]

/-- Entry `(i, j)` of the assembled tangent: the sum over elements and over pairs of local DOFs
mapped to `(i, j)`. -/
def assembledMat (elems : List (Elem R)) (i j : ℕ) : R :=
  (elems.map (fun e =>
    ∑ a ∈ Finset.range e.dofs.length, ∑ b ∈ Finset.range e.dofs.length,
      if e.dofs.getD a 0 = i ∧ e.dofs.getD b 0 = j
      then e.jac.getD (a * e.dofs.length + b) 0 else 0)).sum

/-- Entry `i` of the assembled residual. -/
def assembledVec (elems : List (Elem R)) (i : ℕ) : R :=
  (elems.map (fun e =>
    ∑ a ∈ Finset.range e.dofs.length,
      if e.dofs.getD a 0 = i then e.res.getD a 0 else 0)).sum

/-- Some element couples `i` and `j`. -/
def Coupled (elems : List (Elem R)) (i j : ℕ) : Prop :=
  ∃ e ∈ elems, i ∈ e.dofs ∧ j ∈ e.dofs

/-- A CSR pattern `(indptr, indices)` with `n` rows is canonical: pointers start at `0`, never
decrease, end at the number of stored entries, and the columns are strictly increasing in every row
and below `m`. -/
structure CanonicalCSR (n m : ℕ) (indptr indices : List ℕ) : Prop where
  ptr_length : indptr.length = n + 1
  ptr_zero : indptr.getD 0 0 = 0
  ptr_last : indptr.getD n 0 = indices.length
  ptr_mono : ∀ r, r < n → indptr.getD r 0 ≤ indptr.getD (r + 1) 0
  cols_lt : ∀ c ∈ indices, c < m
  cols_sorted : ∀ r, r < n → ∀ s t, indptr.getD r 0 ≤ s → s < t → t < indptr.getD (r + 1) 0 →
    indices.getD s 0 < indices.getD t 0

/-- `(i, j)` is stored in the CSR pattern. -/
def Stored (indptr indices : List ℕ) (i j : ℕ) : Prop :=
  ∃ s, indptr.getD i 0 ≤ s ∧ s < indptr.getD (i + 1) 0 ∧ indices.getD s 0 = j

end Verif.Spec
