import Verif.Model.Solution
import Verif.Model.Band

/-!
# Bridges between solves: `TracedParams.node_var_from_solution`, `SparseDesign.traced_params` and `updated`, `voxelize_mesh`
-/

namespace Verif.Model

/-- What is passed as `sol`: the flat vector or a `Solution` (`/repo/feax/traced_params.py:414`). -/
inductive SolArg (α : Type*) where
  | flat (x : List α)
  | solution (s : Solution α)

/-- `getattr(sol, "dofs", sol)` (`/repo/feax/traced_params.py:414`). -/
def SolArg.dofs {α : Type*} : SolArg α → List α
  | .flat x => x
  | .solution s => s.dofs

/-- `sol_list[var_index]` of a Python list: negative indices count from the end. -/
def pyListIndex (len : ℕ) : PyIndex → Except PyErr ℕ
  | .other => .error .typeError
  | .int z =>
    if 0 ≤ z ∧ z < len then .ok z.toNat else if -(len : ℤ) ≤ z ∧ z < 0 then .ok (z + len).toNat else .error .indexError

/-- `TracedParams.node_var_from_solution` (`/repo/feax/traced_params.py:414-423`). `unflatten_fn_sol_list` reshapes and refuses a vector of
another length. -/
def nodeVarFromSolution {α : Type*} [Inhabited α] (vars : List Var) (sol : SolArg α) (component : Option ℤ) (var : PyIndex) :
    Except PyErr (List α) :=
  if sol.dofs.length ≠ numDofs vars then .error .typeError
  else
    match pyListIndex vars.length var with
    | .error e => .error e
    | .ok i =>
      let u := (unflatten vars sol.dofs).getD i []
      let vec := (vars.getD i ⟨0, 0, 0, []⟩).vec
      if vec = 1 then .ok (u.map fun row => row.getD 0 default)
      else
        match component with
        | none => .error .valueError
        | some c => .ok (u.map fun row => row.getD (Solution.jaxIndex vec c) default)

/-- `SparseDesign.traced_params` (`/repo/feax/spgrid.py:258-266`): the volume variables. -/
def SparseDesign.tracedParams {α : Type*} (s : SparseDesign α) (active : List ℕ) (default : α) (extra : List (List α)) : List (List α) :=
  (active.map fun c : ℕ => s.lookup (c : ℤ) default) :: extra

/-- What `updated` accepts (`/repo/feax/spgrid.py:268-277`): an array or a `TracedParams`, given by its volume variables. -/
inductive DesignArg (α : Type*) where
  | array (x : List α)
  | params (vars : List (List α))

/-- `SparseDesign.updated` (`/repo/feax/spgrid.py:268-277`). `volume_vars[0]` of empty parameters raises. -/
def SparseDesign.updated {α : Type*} (d : α) (s : SparseDesign α) (active : List ℕ) : DesignArg α → Except PyErr (SparseDesign α)
  | .array x => s.update d active x
  | .params [] => .error .indexError
  | .params (x :: _) => s.update d active x

section Voxel
variable {K : Type*} [Field K] [LinearOrder K] [IsStrictOrderedRing K] [FloorRing K]

/-- `np.linspace(0.25, 0.75, max(0, subsamples))` (`/repo/feax/spgrid.py:201`). -/
def subFractions (subsamples : ℤ) : List K :=
  (List.range subsamples.toNat).map fun i : ℕ => 1 / 4 + (i : K) * ((1 / 2) / ((subsamples.toNat : K) - 1))

/-- `pts[cells].mean(axis=1)` for one cell (`/repo/feax/spgrid.py:199`). -/
def cellMean (ps : List (K × K × K)) : K × K × K :=
  ((ps.map fun p => p.1).sum / ps.length, (ps.map fun p => p.2.1).sum / ps.length, (ps.map fun p => p.2.2).sum / ps.length)

/-- `f * p + (1 - f) * c`. -/
def mixPoint (f : K) (p c : K × K × K) : K × K × K :=
  (f * p.1 + (1 - f) * c.1, f * p.2.1 + (1 - f) * c.2.1, f * p.2.2 + (1 - f) * c.2.2)

/-- The samples (`/repo/feax/spgrid.py:197-202`). -/
def meshSamples (points : List (K × K × K)) (cells : List (List ℕ)) (subsamples : ℤ) : List (K × K × K) :=
  let corners := fun c : List ℕ => c.map fun n => points.getD n (0, 0, 0)
  points ++ cells.map (fun c => cellMean (corners c)) ++
    (subFractions subsamples).flatMap fun f => cells.flatMap fun c => (corners c).map fun p => mixPoint f p (cellMean (corners c))

/-- `voxelize_mesh` (`/repo/feax/spgrid.py:189-203`). -/
def voxelizeMesh (g : Grid) (spacing origin : K × K × K) (points : List (K × K × K)) (cells : List (List ℕ)) (subsamples : ℤ) : List ℕ :=
  g.voxelize spacing origin (meshSamples points cells subsamples)

end Voxel

end Verif.Model
