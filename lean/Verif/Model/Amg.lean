import Verif.Model.Periodic
import Mathlib.Algebra.Order.Field.Basic

/-!
# `feax.solvers.amg`: near-null space of the multigrid preconditioner, also on the reduced path

A matrix of modes is the list of its columns. The hierarchy itself (PyAMG) is not modelled; `Candidates` is what it is
asked for.
-/

namespace Verif.Model

variable {K : Type} [Field K] [LinearOrder K]

/-- An `(n_dof, k)` array: number of rows, and the columns. -/
structure Modes (K : Type) where
  rows : ℕ
  cols : List (List K)
deriving DecidableEq, Repr

/-- `col[s::d] = v` on a column (`/repo/feax/solvers/amg.py:58-61, 65-66`). -/
def setStride (d s : ℕ) (v col : List K) : List K := col.mapIdx fun i x => if i % d = s then v.getD (i / d) 0 else x

/-- Coordinate `j` of every node minus its mean (`/repo/feax/solvers/amg.py:50, 53`). -/
def centred (pts : List (List K)) (j : ℕ) : List K :=
  let xs := pts.map fun p => p.getD j 0
  xs.map fun x => x - xs.sum / (xs.length : K)

/-- The columns of `B` before rows are zeroed (`/repo/feax/solvers/amg.py:50-68`). -/
def modeColumns (dim : ℕ) (pts : List (List K)) : Option (List (List K)) :=
  let zero := List.replicate (pts.length * dim) (0 : K)
  let one := List.replicate pts.length (1 : K)
  if dim = 3 then
    let x := centred pts 0
    let y := centred pts 1
    let z := centred pts 2
    some [setStride 3 0 one zero, setStride 3 1 one zero, setStride 3 2 one zero,
      setStride 3 2 y (setStride 3 1 (z.map (- ·)) zero),
      setStride 3 2 (x.map (- ·)) (setStride 3 0 z zero),
      setStride 3 1 x (setStride 3 0 (y.map (- ·)) zero)]
  else if dim = 2 then
    let x := centred pts 0
    let y := centred pts 1
    some [setStride 2 0 one zero, setStride 2 1 one zero, setStride 2 1 x (setStride 2 0 (y.map (- ·)) zero)]
  else none

/-- `B[rows, :] = 0` on one column (`/repo/feax/solvers/amg.py:70-71`). Simplification: rows out of range are ignored (NumPy
raises); the rows of a compiled boundary condition are in range. -/
def zeroRows (rows : List ℕ) (col : List K) : List K := col.mapIdx fun i x => if i ∈ rows then 0 else x

/-- `rigid_body_modes` (`/repo/feax/solvers/amg.py:29-72`). `vec` is the list of components per variable, `bc` the constrained
rows when a boundary condition is given. -/
def rigidBodyModes (vec : List ℕ) (dim : ℕ) (pts : List (List K)) (bc : Option (List ℕ)) : Option (Modes K) :=
  match vec with
  | [nv] =>
    if nv ≠ dim then none
    else (modeColumns dim pts).map fun cols => ⟨pts.length * nv, cols.map (zeroRows (bc.getD []))⟩
  | _ => none

/-- `_default_num_candidates` (`/repo/feax/solvers/amg.py:91-97`). -/
def defaultNumCandidates (vec : List ℕ) (dim : ℕ) : ℕ :=
  match vec with
  | [nv] => if nv = dim then dim * (dim + 1) / 2 else 1
  | _ => 1

/-- The option `near_nullspace`: `None`, a string, or an array. -/
inductive NearNullspace (K : Type) where
  | default
  | preset (s : String)
  | array (B : Modes K)
deriving DecidableEq

/-- `_resolve_near_nullspace` (`/repo/feax/solvers/amg.py:100-128`). `none` is the constant near-null space.
Simplification: `str.lower` is the ASCII one; no other letter has a lower case in these words. -/
def resolveNearNullspace (ns : NearNullspace K) (vec : List ℕ) (dim : ℕ) (pts : List (List K)) (bc : Option (List ℕ)) :
    Except PyErr (Option (Modes K) × Bool) :=
  match ns with
  | .default => .ok (rigidBodyModes vec dim pts bc, false)
  | .preset s =>
    if s.toLower = "rigid_body" then
      match rigidBodyModes vec dim pts bc with
      | none => .error .valueError
      | some B => .ok (some B, false)
    else if s.toLower = "constant" then .ok (none, false)
    else if s.toLower = "adaptive_sa" then .ok (none, true)
    else .error .valueError
  | .array B => .ok (some B, false)

/-- What the hierarchy is built from: a given near-null space (`none`: PyAMG's constant vector), or `k` vectors to be found. -/
inductive Candidates (K : Type) where
  | given (B : Option (Modes K))
  | search (k : ℕ)
deriving DecidableEq

/-- The choice in `build_amg_preconditioner` (`/repo/feax/solvers/amg.py:166-182`). -/
def amgCandidates (ns : NearNullspace K) (numNullspace : Option ℕ) (vec : List ℕ) (dim : ℕ) (pts : List (List K))
    (bc : Option (List ℕ)) : Except PyErr (Candidates K) :=
  (resolveNearNullspace ns vec dim pts bc).map fun r =>
    if r.2 then .search (match numNullspace with
      | some (k + 1) => k + 1
      | _ => defaultNumCandidates vec dim)
    else .given r.1

/-- `_project_reduced_nullspace` (`/repo/feax/solvers/reduced.py:80-92`); `tiny` is `1e-30`. -/
def projectReduced (tiny : K) (P : Coo K) (B : Modes K) : Modes K :=
  let w := P.rmatvec (List.replicate P.rows 1)
  ⟨P.cols, B.cols.map fun b => List.zipWith (· / ·) (P.rmatvec b) (w.map fun x => max x tiny)⟩

/-- `_reduced_amg_options` (`/repo/feax/solvers/reduced.py:95-114`): the near-null space it puts in place. -/
def reducedNearNullspace (tiny : K) (P : Coo K) (ns : NearNullspace K) (vec : List ℕ) (dim : ℕ) (pts : List (List K))
    (bc : Option (List ℕ)) : Except PyErr (NearNullspace K) :=
  let modes := match rigidBodyModes vec dim pts bc with
    | some B => NearNullspace.array (projectReduced tiny P B)
    | none => .preset "constant"
  match ns with
  | .default => .ok modes
  | .preset s => .ok (if s.toLower = "rigid_body" then modes else .preset s)
  | .array B =>
    if B.rows = P.rows then .ok (.array (projectReduced tiny P B))
    else if B.rows = P.cols then .ok (.array B)
    else .error .valueError

/-- What the hierarchy of the reduced operator is built from (`/repo/feax/solvers/reduced.py:132-139`). -/
def reducedCandidates (tiny : K) (P : Coo K) (ns : NearNullspace K) (numNullspace : Option ℕ) (vec : List ℕ) (dim : ℕ)
    (pts : List (List K)) (bc : Option (List ℕ)) : Except PyErr (Candidates K) := do
  let ns' ← reducedNearNullspace tiny P ns vec dim pts bc
  amgCandidates ns' numNullspace vec dim pts bc

end Verif.Model
