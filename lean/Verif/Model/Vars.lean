import Verif.Model.Arr
import Verif.Model.Solution
import Mathlib.Algebra.Field.Basic

/-!
# Volume variables: from the array given by the user to the value at a quadrature point

`classify_volume_var`, `Operator.gather_internal_vars`, `Operator.interpolate_var` (`/repo/feax/assembler.py`), the
interpolation in `create_energy_fn` and the one in `average_stress` (`/repo/feax/flat/solver.py`).
-/

namespace Verif.Model

/-- An array of rank 0, 1 or 2. -/
inductive NdArr (K : Type) where
  | sc (x : K)
  | vec (xs : List K)
  | mat (rows : List (List K))
  deriving DecidableEq

/-- What is used of a finite element: number of nodes of its mesh, shape function values (one row per quadrature point)
and connectivity. -/
structure FeInfo (K : Type) where
  totalNodes : ℕ
  shapeVals : List (List K)
  cells : List (List ℕ)
  nodesPerElem : ℕ

/-- What is used of the problem; `numQuads` is that of variable 0. -/
structure VarProblem (K : Type) where
  fes : List (FeInfo K)
  numCells : ℕ
  numQuads : ℕ

/-- The storage tags (`/repo/feax/assembler.py:64-66`). -/
inductive VarKind
  | node | cell | quad
  deriving DecidableEq

section
variable {K : Type} [Field K]

/-- Index of the first variable whose mesh has `n` nodes (`/repo/feax/assembler.py:90-92`, `346-350`). -/
def feWithNodes (p : VarProblem K) (n : ℕ) : Option ℕ := p.fes.findIdx? fun fe => fe.totalNodes == n

/-- `classify_volume_var` (`/repo/feax/assembler.py:69-103`). -/
def classifyVar (p : VarProblem K) (v : NdArr K) : Option VarKind × ℕ :=
  match v with
  | .sc _ => (some .cell, 0)
  | .vec xs =>
    match feWithNodes p xs.length with
    | some i => (some .node, i)
    | none => if xs.length = p.numCells then (some .cell, 0) else (none, 0)
  | .mat rows =>
    match feWithNodes p rows.length with
    | some i => (some .node, i)
    | none =>
      if rows.length = p.numCells then
        if (rows.getD 0 []).length = p.numQuads then (some .quad, 0) else (some .cell, 0)
      else (none, 0)

/-- `xs[i]` on a JAX array (clamped). -/
def clampGet {A : Type} (d : A) (xs : List A) (i : ℕ) : A := xs.getD (min i (xs.length - 1)) d

/-- The finite element `i`, with the empty one as default. -/
def VarProblem.fe (p : VarProblem K) (i : ℕ) : FeInfo K := p.fes.getD i ⟨0, [], [], 0⟩

/-- `gather_internal_vars` (`/repo/feax/assembler.py:316-356`) followed by the slice of one cell by `vmap`: arrays with
`num_cells` rows pass through, the others are gathered through the connectivity. A rank-0 array cannot be mapped over. -/
def gatherCell (p : VarProblem K) (v : NdArr K) (c : ℕ) : Except PyErr (NdArr K) :=
  match v with
  | .sc _ => .error .valueError
  | .vec xs =>
    if xs.length = p.numCells then .ok (.sc (xs.getD c 0))
    else
      let fe := p.fe ((feWithNodes p xs.length).getD 0)
      .ok (.vec ((fe.cells.getD c []).map (clampGet 0 xs)))
  | .mat rows =>
    if rows.length = p.numCells then .ok (.vec (rows.getD c []))
    else
      let fe := p.fe ((feWithNodes p rows.length).getD 0)
      .ok (.mat ((fe.cells.getD c []).map (clampGet [] rows)))

/-- The inner product of two rows. -/
def rowDot (a b : List K) : K := (List.zipWith (· * ·) a b).sum

/-- `np.dot(A, b)` of a matrix (`n` columns) with an array of rank 0, 1 or 2. -/
def npDot (a : List (List K)) (n : ℕ) (b : NdArr K) : Except PyErr (NdArr K) :=
  match b with
  | .sc x => .ok (.mat (a.map fun r => r.map (· * x)))
  | .vec xs => if xs.length = n then .ok (.vec (a.map fun r => rowDot r xs)) else .error .typeError
  | .mat rows =>
    if rows.length = n then
      .ok (.mat (a.map fun r => (List.range (rows.getD 0 []).length).map fun k => rowDot r (rows.map fun row => row.getD k 0)))
    else .error .typeError

/-- `Operator.interpolate_var` (`/repo/feax/assembler.py:186-240`); `own` is the variable of the operator. -/
def interpolateVar (p : VarProblem K) (own : ℕ) (v : NdArr K) (kind : Option VarKind) (feIdx : ℕ) : Except PyErr (NdArr K) :=
  match kind with
  | some .node => npDot (p.fe feIdx).shapeVals (p.fe feIdx).nodesPerElem v
  | some .cell =>
    match v with
    | .sc x => .ok (.vec (List.replicate p.numQuads x))
    | .vec xs => .ok (.vec (List.replicate p.numQuads (clampGet 0 xs 0)))
    | .mat rows => .ok (.vec (List.replicate p.numQuads (clampGet 0 rows.flatten 0)))
  | some .quad => .ok v
  | none =>
    match v with
    | .sc x => .ok (.vec (List.replicate p.numQuads x))
    | .vec xs =>
      if p.fes.any fun fe => xs.length == fe.nodesPerElem then npDot (p.fe own).shapeVals (p.fe own).nodesPerElem v
      else if xs.length = 1 then .ok (.vec (List.replicate p.numQuads (clampGet 0 xs 0)))
      else if xs.length = p.numQuads then .ok v
      else .ok (.vec (List.replicate p.numQuads (clampGet 0 xs 0)))
    | .mat rows => .ok (.mat rows)

/-- One quadrature point of an array mapped over by `vmap`: its leading axis must be the number of quadrature points
(the displacement gradients are mapped over with it). -/
def sliceQuad (numQuads : ℕ) (v : NdArr K) (q : ℕ) : Except PyErr (NdArr K) :=
  match v with
  | .sc _ => .error .valueError
  | .vec xs => if xs.length = numQuads then .ok (.sc (xs.getD q 0)) else .error .valueError
  | .mat rows => if rows.length = numQuads then .ok (.vec (rows.getD q [])) else .error .valueError

/-- The argument the constitutive function of operator `own` receives at quadrature point `q` of cell `c` during assembly
(`/repo/feax/assembler.py:948-970` and the kernels). -/
def assemblyValue (p : VarProblem K) (own : ℕ) (v : NdArr K) (c q : ℕ) : Except PyErr (NdArr K) := do
  let (kind, feIdx) := classifyVar p v
  let cell ← gatherCell p v c
  let quads ← interpolateVar p own cell kind feIdx
  sliceQuad p.numQuads quads q

/-- The same in `create_energy_fn` (`/repo/feax/assembler.py:1915-1931`, `1949-1959`) and in `average_stress`
(`/repo/feax/flat/solver.py:122-147`), which are written alike. -/
def energyValue (p : VarProblem K) (v : NdArr K) (c q : ℕ) : Except PyErr (NdArr K) :=
  match v with
  | .sc _ => .error .valueError
  | .vec xs =>
    if xs.length = p.numCells then sliceQuad p.numQuads (.vec (List.replicate p.numQuads (xs.getD c 0))) q
    else
      let fe := p.fe 0
      sliceQuad p.numQuads (.vec (fe.shapeVals.map fun r => rowDot r ((fe.cells.getD c []).map (clampGet 0 xs)))) q
  | .mat rows =>
    if rows.length = p.numCells then sliceQuad p.numQuads (.vec (rows.getD c [])) q else .error .valueError

end
end Verif.Model
