import Verif.Model.Assembly
import Verif.Model.BC
import Verif.Model.Solution
import Verif.Model.Vars

/-!
# Pytree registration

`tree_flatten` / `tree_unflatten` of the classes passed through `jit`, `vmap` and `grad`, the operations of
`jax.tree_util` built on them, and the functional updates of `TracedParams`. `A` is the type of arrays.
-/

namespace Verif.Model

/-- `TracedParams` after `__post_init__` (`/repo/feax/traced_params.py:85-104`). -/
structure TracedParams (A : Type) where
  volumeVars : List A
  surfaceVars : List (List A)
  deriving DecidableEq, Repr

/-- The auxiliary data: number of volume variables, number of variables per surface. -/
abbrev ParamsAux := ℕ × List ℕ

section params
variable {A B : Type}

/-- `TracedParams.tree_flatten` (`/repo/feax/traced_params.py:467-486`). -/
def TracedParams.flatten (t : TracedParams A) : List A × ParamsAux :=
  (t.volumeVars ++ t.surfaceVars.flatten, (t.volumeVars.length, t.surfaceVars.map List.length))

/-- The loop over `surface_var_counts` (`/repo/feax/traced_params.py:514-517`). -/
def takeGroups : List ℕ → List A → List (List A)
  | [], _ => []
  | n :: ns, xs => xs.take n :: takeGroups ns (xs.drop n)

/-- `TracedParams.tree_unflatten` (`/repo/feax/traced_params.py:488-519`). -/
def TracedParams.unflatten (aux : ParamsAux) (leaves : List A) : TracedParams A :=
  ⟨leaves.take aux.1, takeGroups aux.2 (leaves.drop aux.1)⟩

/-- `jax.tree_util.tree_map(f, t)`. -/
def TracedParams.treeMap (f : A → B) (t : TracedParams A) : TracedParams B :=
  TracedParams.unflatten t.flatten.2 (t.flatten.1.map f)

/-- `jax.tree_util.tree_map(stack, t0, *rest)`: the other trees must have the structure of the first (`ValueError`); leaf
`k` of the result holds the leaves `k` of all trees. -/
def TracedParams.stack (d : A) : List (TracedParams A) → Except PyErr (TracedParams (List A))
  | [] => .error .typeError
  | t :: rest =>
    if rest.all (fun s => s.flatten.2 == t.flatten.2) then
      .ok (.unflatten t.flatten.2 ((List.range t.flatten.1.length).map fun k => (t :: rest).map fun s => s.flatten.1.getD k d))
    else .error .valueError

/-- Lane `i` of a stacked tree, as `vmap` sees it. -/
def TracedParams.lane (d : A) (i : ℕ) (t : TracedParams (List A)) : TracedParams A := t.treeMap fun xs => xs.getD i d

/-- Assignment `l[z] = v` to a Python list. -/
def pySetItem (l : List A) (z : ℤ) (v : A) : Except PyErr (List A) :=
  let w := if z < 0 then z + l.length else z
  if 0 ≤ w ∧ w < l.length then .ok (l.set w.toNat v) else .error .indexError

/-- Reading `l[z]` of a Python list. -/
def pyGetItem (l : List A) (z : ℤ) : Except PyErr A :=
  let w := if z < 0 then z + l.length else z
  match l[w.toNat]? with
  | some a => if 0 ≤ w then .ok a else .error .indexError
  | none => .error .indexError

/-- `replace_volume_var` (`/repo/feax/traced_params.py:425-442`). -/
def TracedParams.replaceVolumeVar (t : TracedParams A) (index : ℤ) (v : A) : Except PyErr (TracedParams A) := do
  let vs ← pySetItem t.volumeVars index v
  return ⟨vs, t.surfaceVars⟩

/-- `replace_surface_var` (`/repo/feax/traced_params.py:444-465`). -/
def TracedParams.replaceSurfaceVar (t : TracedParams A) (surface var : ℤ) (v : A) : Except PyErr (TracedParams A) := do
  let tup ← pyGetItem t.surfaceVars surface
  let tup' ← pySetItem tup var v
  let ss ← pySetItem t.surfaceVars surface tup'
  return ⟨t.volumeVars, ss⟩

end params

section coerce
variable {K : Type} [Zero K]

/-- A volume variable as given to the constructor: an array or a `Solution`. -/
inductive VolArg (K : Type) where
  | arr (a : NdArr K)
  | sol (s : Solution K)

/-- `_coerce_volume_var` (`/repo/feax/traced_params.py:22-38`). -/
def coerceVolumeVar : VolArg K → Except PyErr (NdArr K)
  | .arr a => .ok a
  | .sol s =>
    if s.layout.length ≠ 1 then .error .valueError
    else do
      let u ← s.field (.int 0)
      return if (s.layout.getD 0 (0, 0)).2 = 1 then .vec (u.map fun r => r.getD 0 0) else .mat u

/-- The constructor `TracedParams(volume_vars, surface_vars)` with its `__post_init__`
(`/repo/feax/traced_params.py:82-104`). -/
def TracedParams.new (vol : List (VolArg K)) (surf : Option (List (List (NdArr K)))) : Except PyErr (TracedParams (NdArr K)) := do
  let vs ← vol.mapM coerceVolumeVar
  return ⟨vs, surf.getD []⟩

/-- `create_node_var` (`/repo/feax/traced_params.py:107-135`). -/
def createNodeVar {K : Type} (p : VarProblem K) (value : K) (i : ℕ) : Except PyErr (NdArr K) :=
  match p.fes[i]? with
  | none => .error .indexError
  | some fe => .ok (.vec (List.replicate fe.totalNodes value))

/-- `create_cell_var` (`/repo/feax/traced_params.py:137-165`). -/
def createCellVar {K : Type} (p : VarProblem K) (value : K) : NdArr K := .vec (List.replicate p.numCells value)

/-- `create_uniform_volume_var` (`/repo/feax/traced_params.py:167-197`); `numQuads` of the variable is the number of rows of
its shape values. -/
def createUniformVolumeVar {K : Type} (p : VarProblem K) (value : K) (i : ℕ) : Except PyErr (NdArr K) :=
  match p.fes[i]? with
  | none => .error .indexError
  | some fe => .ok (.mat (List.replicate p.numCells (List.replicate fe.shapeVals.length value)))

/-- `create_node_var_from_fn` (`/repo/feax/traced_params.py:229-263`), on the list of node positions of the variable. -/
def createNodeVarFromFn {K P : Type} (points : List P) (f : P → K) : NdArr K := .vec (points.map f)

/-- `create_cell_var_from_fn` (`/repo/feax/traced_params.py:265-299`): the function at the mean of the nodes of each cell. -/
def createCellVarFromFn {K P : Type} (mean : List P → P) (d : P) (points : List P) (cells : List (List ℕ)) (f : P → K) : NdArr K :=
  .vec ((cells.map fun c => mean (c.map fun n => points.getD n d)).map f)

end coerce

section other

/-- `_dirichletbc_flatten` (`/repo/feax/DCboundary.py:92-112`). -/
def DirichletBC.flatten {R : Type*} (bc : DirichletBC R) : (List ℕ × List Bool × List R) × ℕ :=
  ((bc.rows, bc.mask, bc.vals), bc.totalDofs)

/-- `_dirichletbc_unflatten` (`/repo/feax/DCboundary.py:115-136`). -/
def DirichletBC.unflatten {R : Type*} (aux : ℕ) (arrays : List ℕ × List Bool × List R) : DirichletBC R :=
  { rows := arrays.1, mask := arrays.2.1, vals := arrays.2.2, totalDofs := aux }

/-- `CSRMatrix.tree_flatten` (`/repo/feax/csr.py:46-50`). -/
def CSRMatrix.flatten {R : Type*} (A : CSRMatrix R) : (List R × List ℕ × List ℕ) × (ℕ × ℕ) :=
  ((A.data, A.indptr, A.indices), (A.numRows, A.numCols))

/-- `CSRMatrix.tree_unflatten` (`/repo/feax/csr.py:52-55`). -/
def CSRMatrix.unflatten {R : Type*} (aux : ℕ × ℕ) (c : List R × List ℕ × List ℕ) : CSRMatrix R :=
  { data := c.1, indptr := c.2.1, indices := c.2.2, numRows := aux.1, numCols := aux.2 }

/-- `Solution.tree_flatten` (`/repo/feax/solution.py:57-58`). -/
def Solution.flatten {α : Type*} (s : Solution α) : List α × List (ℕ × ℕ) := (s.dofs, s.layout)

/-- `Solution.tree_unflatten` (`/repo/feax/solution.py:60-62`). -/
def Solution.unflatten {α : Type*} (aux : List (ℕ × ℕ)) (d : List α) : Solution α := ⟨d, aux⟩

/-- `TracedStructure` (`/repo/feax/traced_structure.py:45-95`). -/
structure TracedStructure (A : Type) where
  cellsList : List A
  physicalQuadPoints : A
  shapeGrads : A
  jxw : A
  vGradsJxw : A
  resPerm : A
  resSortedDofs : A
  resVolPerm : A
  resVolSortedDofs : A
  resFacePerm : A
  resFaceSortedDofs : A
  csrIndptr : A
  csrIndices : A
  csrRowOfSlot : A
  csrDiagSlots : A
  csrTPerm : A
  csrTIndptr : A
  csrTIndices : A
  csrVolPerm : A
  csrVolSortedSlots : A
  boundaryIndsList : List A
  physicalSurfaceQuadPoints : List A
  selectedFaceShapeVals : List A
  selectedFaceShapeGrads : List A
  nansonScale : List A
  csrFacePerm : A
  csrFaceSortedSlots : A
  deriving DecidableEq

/-- A child of the node: an array or a tuple of arrays. -/
inductive TsChild (A : Type) where
  | arr (a : A)
  | tup (as : List A)
  deriving DecidableEq

/-- `TracedStructure.tree_flatten` (`/repo/feax/traced_structure.py:166-168`): the fields in the order of declaration. -/
def TracedStructure.flatten {A : Type} (t : TracedStructure A) : List (TsChild A) :=
  [.tup t.cellsList, .arr t.physicalQuadPoints, .arr t.shapeGrads, .arr t.jxw, .arr t.vGradsJxw, .arr t.resPerm,
    .arr t.resSortedDofs, .arr t.resVolPerm, .arr t.resVolSortedDofs, .arr t.resFacePerm, .arr t.resFaceSortedDofs,
    .arr t.csrIndptr, .arr t.csrIndices, .arr t.csrRowOfSlot, .arr t.csrDiagSlots, .arr t.csrTPerm, .arr t.csrTIndptr,
    .arr t.csrTIndices, .arr t.csrVolPerm, .arr t.csrVolSortedSlots, .tup t.boundaryIndsList,
    .tup t.physicalSurfaceQuadPoints, .tup t.selectedFaceShapeVals, .tup t.selectedFaceShapeGrads, .tup t.nansonScale,
    .arr t.csrFacePerm, .arr t.csrFaceSortedSlots]

/-- `TracedStructure.tree_unflatten` (`/repo/feax/traced_structure.py:170-172`): `cls(*leaves)`. A wrong number of
arguments is a `TypeError`; so that the fields can be typed, a tuple in the place of an array is one here too. -/
def TracedStructure.unflatten {A : Type} : List (TsChild A) → Except PyErr (TracedStructure A)
  | [.tup a0, .arr a1, .arr a2, .arr a3, .arr a4, .arr a5, .arr a6, .arr a7, .arr a8, .arr a9, .arr a10, .arr a11, .arr a12,
      .arr a13, .arr a14, .arr a15, .arr a16, .arr a17, .arr a18, .arr a19, .tup a20, .tup a21, .tup a22, .tup a23, .tup a24,
      .arr a25, .arr a26] =>
    .ok ⟨a0, a1, a2, a3, a4, a5, a6, a7, a8, a9, a10, a11, a12, a13, a14, a15, a16, a17, a18, a19, a20, a21, a22, a23, a24,
      a25, a26⟩
  | _ => .error .typeError

end other

section problem

/-- A constructor argument given once or as a (possibly nested) list. -/
inductive PyArg (A : Type) where
  | one (a : A)
  | many (l : List (PyArg A))

/-- Constructor arguments of `Problem` (`/repo/feax/problem.py:90-99`). `L`, `I`: location functions and additional
information. -/
structure ProblemArgs (M L I : Type) where
  mesh : PyArg M
  vec : PyArg ℕ
  dim : ℕ
  eleType : PyArg String
  gaussOrder : PyArg (Option ℕ)
  locationFns : Option (List L)
  matrixView : MatrixView ⊕ String
  info : List I
  hess : Bool

/-- `MatrixView[name.upper()]`. -/
def viewNamed (s : String) : Option MatrixView :=
  if s.toUpper = "FULL" then some .full else if s.toUpper = "UPPER" then some .upper
  else if s.toUpper = "LOWER" then some .lower else none

section
variable {M L I D V : Type}

/-- The conversion of `matrix_view` (`/repo/feax/problem.py:114-119`). -/
def normView : MatrixView ⊕ String → Except PyErr (MatrixView ⊕ String)
  | .inl v => .ok (.inl v)
  | .inr s =>
    match viewNamed s with
    | some v => .ok (.inl v)
    | none => .error .valueError

/-- The normalisation at the start of `__post_init__` (`/repo/feax/problem.py:114-125`). -/
def ProblemArgs.normalise (a : ProblemArgs M L I) : Except PyErr (ProblemArgs M L I) := do
  let v ← normView a.matrixView
  return match a.mesh with
    | .many _ => { a with matrixView := v }
    | .one m =>
      { a with matrixView := v, mesh := .many [.one m], vec := .many [a.vec], eleType := .many [a.eleType],
               gaussOrder := .many [a.gaussOrder] }

/-- A `Problem` object: its fields, the state computed by the rest of `__post_init__` (a function `build` of the fields),
and attributes assigned later (by name). -/
structure ProblemObj (M L I D V : Type) where
  args : ProblemArgs M L I
  derived : D
  later : List (String × V)

/-- Construction of an instance of the class with `__post_init__` = normalise, then `build`. -/
def constructProblem (build : ProblemArgs M L I → Except PyErr D) (a : ProblemArgs M L I) :
    Except PyErr (ProblemObj M L I D V) := do
  let n ← a.normalise
  let d ← build n
  return ⟨n, d, []⟩

/-- `Problem.tree_flatten` (`/repo/feax/problem.py:783-815`): no leaves, all fields static. -/
def ProblemObj.flatten (o : ProblemObj M L I D V) : ProblemArgs M L I := o.args

/-- `Problem.tree_unflatten` (`/repo/feax/problem.py:817-848`): the constructor again. -/
def ProblemObj.unflatten (build : ProblemArgs M L I → Except PyErr D) (static : ProblemArgs M L I) :
    Except PyErr (ProblemObj M L I D V) := constructProblem build static

/-- Assignment of an attribute after construction. -/
def ProblemObj.setAttr (o : ProblemObj M L I D V) (name : String) (v : V) : ProblemObj M L I D V :=
  { o with later := (name, v) :: o.later }

end
end problem
end Verif.Model
