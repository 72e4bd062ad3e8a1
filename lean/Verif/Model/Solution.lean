import Verif.Model.Layout

/-!
# `feax.solution.Solution`
-/

namespace Verif.Model

/-- Python exceptions raised by the modelled code. -/
inductive PyErr where
  | typeError | indexError | valueError | runtimeError | keyError | assertionError
  | zeroDivision | attributeError | notImplemented | importError
deriving DecidableEq, Repr

/-- A Python value used as `var_index`: an `int`/numpy integer, or anything else. -/
inductive PyIndex where
  | int (z : ℤ)
  | other
deriving DecidableEq, Repr

/-- `Solution` (`/repo/feax/solution.py:42-54`): flat DOFs and static layout `(num_nodes, vec)`.
Simplification: one lane (no leading batch axes). -/
structure Solution (α : Type*) where
  dofs : List α
  layout : List (ℕ × ℕ)

/-- `Solution.from_problem` (`/repo/feax/solution.py:49-54`). -/
def Solution.fromProblem {α : Type*} (vars : List Var) (dofs : List α) : Solution α :=
  ⟨dofs, vars.map (fun v => (v.numNodes, v.vec))⟩

namespace Solution
variable {α : Type*}

/-- `Solution._offset` (`/repo/feax/solution.py:135-144`): type check, range check, start, `n`, `v`. -/
def offset (s : Solution α) : PyIndex → Except PyErr (ℕ × ℕ × ℕ)
  | .other => .error .typeError
  | .int z =>
    if 0 ≤ z ∧ z < s.layout.length then
      let i := z.toNat
      let sizes := s.layout.map (fun p => p.1 * p.2)
      .ok ((sizes.take i).sum, s.layout.getD i (0, 0))
    else .error .indexError

/-- `Solution.field` (`/repo/feax/solution.py:146-151`): slice and reshape to `(n, v)`. -/
def field (s : Solution α) (var : PyIndex) : Except PyErr (List (List α)) :=
  match s.offset var with
  | .error e => .error e
  | .ok (start, n, v) => .ok (reshapeRows n v ((s.dofs.drop start).take (n * v)))

/-- JAX indexing of an axis of length `len` by a Python int: negative wraps once, then the index is
clamped into range (gather `mode=clip`). -/
def jaxIndex (len : ℕ) (z : ℤ) : ℕ :=
  let w := if z < 0 then z + len else z
  min w.toNat (len - 1)

/-- `Solution.node_var` (`/repo/feax/solution.py:159-169`). -/
def nodeVar [Inhabited α] (s : Solution α) (component : Option ℤ) (var : PyIndex) :
    Except PyErr (List α) :=
  match s.offset var, s.field var with
  | .ok (_, _, vec), .ok u =>
    if vec = 1 then .ok (u.map (fun row => row.getD 0 default))
    else match component with
      | none => .error .valueError
      | some c => .ok (u.map (fun row => row.getD (jaxIndex vec c) default))
  | .error e, _ => .error e
  | _, .error e => .error e

end Solution

end Verif.Model
