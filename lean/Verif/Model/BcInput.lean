import Verif.Model.BC

/-!
# What a user writes in a boundary specification (`feax.DCboundary`)

`Verif.Model.BC` starts from specifications in normal form. Here are the Python objects they are made from: functions with
their parameter lists, components and values of several types, and the lists that hold the specifications. Rows are
integers, since nothing keeps them from being negative.
-/

namespace Verif.Model

/-- A callable given as `location`, as far as `__code__.co_argcount` and a call can tell
(`/repo/feax/DCboundary.py:447-454`). -/
inductive PyLoc (Pt R : Type*) where
  /-- `lambda pt: …` -/
  | point (f : Pt → Bool)
  /-- `lambda pt, node: …` -/
  | pointNode (f : Pt → ℕ → Bool)
  /-- `lambda pt, tol=d: …`: a parameter with a default value counts in `co_argcount`. -/
  | defaulted (f : Pt → R → Bool) (d : R)
  /-- A bound method `def inside(self, pt)`: `co_argcount` counts `self`. -/
  | method (f : Pt → Bool)
  /-- A callable without `__code__`: `functools.partial`, an object with `__call__`, a compiled function. -/
  | noCode (f : Pt → Bool)
  /-- A function without parameters, or with three and more. -/
  | arity

/-- The raw `component` (`/repo/feax/DCboundary.py:309-319`). A `numpy` integer is neither `str` nor `int`. -/
inductive PyComp where
  | str (s : String)
  | int (z : ℤ)
  | npInt (z : ℤ)
deriving DecidableEq, Repr

/-- The raw `value` (`/repo/feax/DCboundary.py:321-324`): a Python number, an array scalar, or a function, whose result is
flattened by `reshape(-1)` (`/repo/feax/DCboundary.py:470`). -/
inductive PyValue (Pt R : Type*) where
  | number (c : R)
  | arrayScalar (c : R)
  | fn (f : Pt → List R)

/-- `DirichletBCSpec(location, component, value, variable_index)` (`/repo/feax/DCboundary.py:259-294`). -/
structure RawSpec (Pt R : Type*) where
  location : PyLoc Pt R
  component : PyComp
  value : PyValue Pt R
  variableIndex : Option ℤ := none

/-- The component after `__post_init__`. -/
inductive IntComp where
  | all
  | idx (z : ℤ)
deriving DecidableEq, Repr

/-- `DirichletBCSpec.__post_init__` (`/repo/feax/DCboundary.py:296-324`), the component. -/
def postInit : PyComp → Except PyErr IntComp
  | .str s =>
    if s.toLower = "x" then .ok (.idx 0)
    else if s.toLower = "y" then .ok (.idx 1)
    else if s.toLower = "z" then .ok (.idx 2)
    else if s.toLower = "all" then .ok .all
    else .error .valueError
  | .int z => if z < 0 then .error .valueError else .ok (.idx z)
  | .npInt z => .ok (.idx z)

/-- A specification object: the raw one with its component replaced. -/
structure SpecObj (Pt R : Type*) where
  location : PyLoc Pt R
  component : IntComp
  value : PyValue Pt R
  variableIndex : Option ℤ

/-- Construction of a specification (`/repo/feax/DCboundary.py:259-324`). -/
def mkSpec {Pt R : Type*} (r : RawSpec Pt R) : Except PyErr (SpecObj Pt R) :=
  match postInit r.component with
  | .error e => .error e
  | .ok c => .ok ⟨r.location, c, r.value, r.variableIndex⟩

section create
variable {Pt R : Type*} [NatCast R]

/-- `components` (`/repo/feax/DCboundary.py:431-444`), `[]` where the specification is skipped. -/
def objComponents (s : SpecObj Pt R) (ind vec : ℕ) : List ℤ :=
  if s.variableIndex ≠ none ∧ s.variableIndex ≠ some (ind : ℤ) then []
  else match s.component with
    | .all => (List.range vec).map fun k : ℕ => (k : ℤ)
    | .idx z => if z ≥ vec then [] else [z]

/-- `location_fn` at a point and its node number (`/repo/feax/DCboundary.py:446-459`). -/
def objLocate (l : PyLoc Pt R) : Except PyErr (Pt → ℕ → Bool) :=
  match l with
  | .point f => .ok fun pt _ => f pt
  | .pointNode f => .ok f
  | .defaulted f _ => .ok fun pt k => f pt (k : R)
  | .method _ => .error .typeError
  | .noCode _ => .error .attributeError
  | .arity => .error .valueError

/-- `jax.vmap(spec.value)(…).reshape(-1)` (`/repo/feax/DCboundary.py:470`). -/
def objValues (v : PyValue Pt R) (sel : List Pt) : Except PyErr (List R) :=
  match v with
  | .number c => .ok (sel.map fun _ => c)
  | .arrayScalar _ => .error .typeError
  | .fn f => .ok (sel.map f).flatten

/-- One pass of the component loop (`/repo/feax/DCboundary.py:446-471`): rows and values appended. -/
def objEntries (s : SpecObj Pt R) (vec off : ℕ) (pts : List Pt) (comp : ℤ) : Except PyErr (List ℤ × List R) :=
  match objLocate s.location with
  | .error e => .error e
  | .ok f =>
    let sel := pts.zipIdx.filter fun q => f q.1 q.2
    if sel.isEmpty then .ok ([], [])
    else
      match objValues s.value (sel.map (·.1)) with
      | .error e => .error e
      | .ok vs => .ok (sel.map fun q => (q.2 : ℤ) * vec + comp + off, vs)

/-- The specification on one variable. -/
def objOnVar (ind : ℕ) (v : Var) (off : ℕ) (pts : List Pt) (s : SpecObj Pt R) : Except PyErr (List ℤ × List R) :=
  match forCollect (objEntries s v.vec off pts) (objComponents s ind v.vec) with
  | .error e => .error e
  | .ok ls => .ok ((ls.map (·.1)).flatten, (ls.map (·.2)).flatten)

/-- `bc_rows_list` and `bc_vals_list`, concatenated (`/repo/feax/DCboundary.py:424-475`). -/
def objCollect (vars : List Var) (pts : List (List Pt)) (specs : List (SpecObj Pt R)) : Except PyErr (List ℤ × List R) :=
  match forCollect (fun (q : ((Var × ℕ) × List Pt) × ℕ) =>
      match forCollect (objOnVar q.2 q.1.1.1 q.1.1.2 q.1.2) specs with
      | .error e => .error e
      | .ok ls => .ok ((ls.map (·.1)).flatten, (ls.map (·.2)).flatten)) (((vars.zip (offsets vars)).zip pts).zipIdx) with
  | .error e => .error e
  | .ok ls => .ok ((ls.map (·.1)).flatten, (ls.map (·.2)).flatten)

end create

/-- `np.argsort` of integers, stable (`/repo/feax/DCboundary.py:478`). -/
def argsortInt (keys : List ℤ) : List ℕ :=
  (List.range keys.length).insertionSort fun i j => keys.getD i 0 ≤ keys.getD j 0

/-- The first of each run of equal entries. -/
def isNewInt : List ℤ → List Bool
  | [] => []
  | x :: xs => true :: List.zipWith (fun a b => decide (a ≠ b)) xs (x :: xs).dropLast

/-- `np.unique(xs, return_index=True)` of integers (`/repo/feax/DCboundary.py:483`). -/
def uniqueInt (xs : List ℤ) : List ℤ × List ℕ :=
  let order := argsortInt xs
  let sorted := gather 0 xs order
  (compress sorted (isNewInt sorted), compress order (isNewInt sorted))

/-- A compiled condition whose rows are integers. -/
structure IntBC (R : Type*) where
  rows : List ℤ
  mask : List Bool
  vals : List R
  totalDofs : ℕ
deriving DecidableEq, Repr

/-- `DirichletBCConfig.create_bc` (`/repo/feax/DCboundary.py:395-501`) on the specification objects. Simplification: a
gather beyond the end of the values reads `0`. -/
def createObj {Pt R : Type*} [NatCast R] [Zero R] (vars : List Var) (pts : List (List Pt)) (specs : List (SpecObj Pt R)) :
    Except PyErr (IntBC R) :=
  let n := numDofs vars
  if specs.isEmpty then .ok ⟨[], List.replicate n false, [], n⟩
  else
    match objCollect vars pts specs with
    | .error e => .error e
    | .ok (rows0, vals0) =>
      let sortIdx := argsortInt rows0
      let rows1 := gather 0 rows0 sortIdx
      let vals1 := gather 0 vals0 sortIdx
      let u := uniqueInt rows1
      .ok ⟨u.1, u.1.foldl (fun acc z => setAtInt acc z true) (List.replicate n false), gather 0 vals1 u.2, n⟩

/-- `DirichletBC.from_specs(problem, [DirichletBCSpec(…), …])` (`/repo/feax/DCboundary.py:62-90`). -/
def fromSpecs {Pt R : Type*} [NatCast R] [Zero R] (vars : List Var) (pts : List (List Pt)) (raws : List (RawSpec Pt R)) :
    Except PyErr (IntBC R) :=
  match forCollect mkSpec raws with
  | .error e => .error e
  | .ok specs => createObj vars pts specs

/-! ## The lists that hold specifications -/

/-- The list objects in memory. A `DirichletBCConfig` is the number of the list it holds. -/
abbrev ListHeap (S : Type*) := List (List S)

/-- What a program does with configurations. -/
inductive ConfigOp (S : Type*) where
  /-- `specs = […]` -/
  | newList (l : List S)
  /-- `DirichletBCConfig()` (`/repo/feax/DCboundary.py:358`). -/
  | empty
  /-- `DirichletBCConfig(specs)`: the list itself is kept (`/repo/feax/DCboundary.py:358`). -/
  | wrap (id : ℕ)
  /-- `dirichlet_bc_config(*specs)`: a new list (`/repo/feax/DCboundary.py:535`). -/
  | config (l : List S)
  /-- `config.add(…)` (`/repo/feax/DCboundary.py:391-392`). -/
  | add (id : ℕ) (s : S)

/-- The heap after an operation and the list the operation returns (a list, or the list of the configuration). -/
def ConfigOp.run {S : Type*} (h : ListHeap S) : ConfigOp S → ListHeap S × ℕ
  | .newList l => (h ++ [l], h.length)
  | .empty => (h ++ [[]], h.length)
  | .wrap id => (h, id)
  | .config l => (h ++ [l], h.length)
  | .add id s => (h.modify id (· ++ [s]), id)

/-- A program. -/
def runConfig {S : Type*} (h : ListHeap S) (ops : List (ConfigOp S)) : ListHeap S :=
  ops.foldl (fun h op => (op.run h).1) h

end Verif.Model
