import Verif.Model.Assembly
import Verif.Model.Solution

/-!
# `feax.DCboundary`: Dirichlet boundary conditions
-/

namespace Verif.Model

/-- A Python `for` loop that appends one result per item and may raise. -/
def forCollect {α β ε : Type*} (f : α → Except ε β) : List α → Except ε (List β)
  | [] => .ok []
  | x :: xs =>
    match f x with
    | .error e => .error e
    | .ok y =>
      match forCollect f xs with
      | .error e => .error e
      | .ok ys => .ok (y :: ys)

/-- The raw `component` argument of `DirichletBCSpec` (`/repo/feax/DCboundary.py:290-293`).
Simplification: values that are neither `str` nor `int` are not modelled. -/
inductive RawComp where
  | str (s : String)
  | int (z : ℤ)
deriving DecidableEq, Repr

/-- A normalised component: an index or `'all'`. -/
inductive Comp where
  | all
  | idx (c : ℕ)
deriving DecidableEq, Repr

/-- Component part of `DirichletBCSpec.__post_init__` (`/repo/feax/DCboundary.py:308-319`). -/
def normalizeComp : RawComp → Except PyErr Comp
  | .str s =>
    if s.toLower = "x" then .ok (.idx 0)
    else if s.toLower = "y" then .ok (.idx 1)
    else if s.toLower = "z" then .ok (.idx 2)
    else if s.toLower = "all" then .ok .all
    else .error .valueError
  | .int z => if z < 0 then .error .valueError else .ok (.idx z.toNat)

/-- A location predicate, by `__code__.co_argcount` (`/repo/feax/DCboundary.py:441-448`): one
argument (the point), two (point and node number), or another arity. -/
inductive Location (Pt : Type*) where
  | one (f : Pt → Bool)
  | two (f : Pt → ℕ → Bool)
  | bad

/-- `DirichletBCSpec` after `__post_init__` (`/repo/feax/DCboundary.py:259-324`); a constant value
has become a function (`/repo/feax/DCboundary.py:321-324`). -/
structure BCSpec (Pt R : Type*) where
  location : Location Pt
  component : Comp
  value : Pt → R
  variableIndex : Option ℤ := none

/-- `DirichletBC` (`/repo/feax/DCboundary.py:25-35`). -/
structure DirichletBC (R : Type*) where
  rows : List ℕ
  mask : List Bool
  vals : List R
  totalDofs : ℕ
deriving DecidableEq, Repr

/-- `DirichletBC.replace_vals` (`/repo/feax/DCboundary.py:37-60`). -/
def DirichletBC.replaceVals {R : Type*} (bc : DirichletBC R) (v : List R) : DirichletBC R :=
  { bc with vals := v }

section create
variable {Pt R : Type*}

/-- Component list for a spec on a variable with `vec` components, `[]` when the spec is skipped
(`/repo/feax/DCboundary.py:426-437`). -/
def specComponents (s : BCSpec Pt R) (ind vec : ℕ) : List ℕ :=
  match s.variableIndex with
  | some z =>
    if z ≠ (ind : ℤ) then []
    else match s.component with
      | .all => List.range vec
      | .idx c => if c ≥ vec then [] else [c]
  | none =>
    match s.component with
    | .all => List.range vec
    | .idx c => if c ≥ vec then [] else [c]

/-- One iteration of the component loop (`/repo/feax/DCboundary.py:439-467`): evaluate the location
on all points, rows `node * vec + component + offset`, values at the selected points. -/
def componentEntries (s : BCSpec Pt R) (vec off : ℕ) (pts : List Pt) (comp : ℕ) :
    Except PyErr (List (ℕ × R)) :=
  match s.location with
  | .bad => .error .valueError
  | .one f => .ok ((pts.zipIdx.filter (fun q => f q.1)).map
      (fun q => (q.2 * vec + comp + off, s.value q.1)))
  | .two f => .ok ((pts.zipIdx.filter (fun q => f q.1 q.2)).map
      (fun q => (q.2 * vec + comp + off, s.value q.1)))

/-- Entries of one spec on one variable (`/repo/feax/DCboundary.py:424-467`). -/
def specEntries (ind : ℕ) (v : Var) (off : ℕ) (pts : List Pt) (s : BCSpec Pt R) :
    Except PyErr (List (ℕ × R)) :=
  match forCollect (componentEntries s v.vec off pts) (specComponents s ind v.vec) with
  | .error e => .error e
  | .ok ls => .ok ls.flatten

/-- All `(row, value)` pairs in the order the nested loops append them
(`/repo/feax/DCboundary.py:417-467`). `pts` are the mesh points of each variable. -/
def collectEntries (vars : List Var) (pts : List (List Pt)) (specs : List (BCSpec Pt R)) :
    Except PyErr (List (ℕ × R)) :=
  match forCollect (fun (q : ((Var × ℕ) × List Pt) × ℕ) =>
      match forCollect (specEntries q.2 q.1.1.1 q.1.1.2 q.1.2) specs with
      | .error e => .error e
      | .ok ls => .ok ls.flatten) (((vars.zip (offsets vars)).zip pts).zipIdx) with
  | .error e => .error e
  | .ok ls => .ok ls.flatten

/-- `np.unique(xs, return_index=True)`: sorted distinct values and the index of the first
occurrence of each (numpy/JAX use a stable sort), `/repo/feax/DCboundary.py:479-481`. -/
def uniqueWithIndex (xs : List ℕ) : List ℕ × List ℕ :=
  let order := argsort xs
  let sorted := gather 0 xs order
  (compress sorted (isNew sorted), compress order (isNew sorted))

/-- `DirichletBCConfig.create_bc` (`/repo/feax/DCboundary.py:395-501`). -/
def createBC [Zero R] (vars : List Var) (pts : List (List Pt)) (specs : List (BCSpec Pt R)) :
    Except PyErr (DirichletBC R) :=
  let n := numDofs vars
  if specs.isEmpty then .ok ⟨[], List.replicate n false, [], n⟩
  else
    match collectEntries vars pts specs with
    | .error e => .error e
    | .ok entries =>
      let rows0 := entries.map (·.1)
      let vals0 := entries.map (·.2)
      let sortIdx := argsort rows0
      let rows1 := gather 0 rows0 sortIdx
      let vals1 := gather 0 vals0 sortIdx
      let u := uniqueWithIndex rows1
      let bcRows := u.1
      let bcVals := gather 0 vals1 u.2
      .ok ⟨bcRows, scatterSet (List.replicate n false) bcRows (bcRows.map (fun _ => true)), bcVals, n⟩

end create

section apply
variable {R : Type*}

/-- `.at[i].set(v)` with a possibly negative index (JAX scatter: negative wraps once, out-of-range
dropped), `/repo/feax/DCboundary.py:198`. -/
def setAtInt (arr : List R) (i : ℤ) (v : R) : List R :=
  let w := if i < 0 then i + arr.length else i
  if 0 ≤ w then arr.set w.toNat v else arr

/-- `apply_boundary_to_J_csr` (`/repo/feax/DCboundary.py:147-199`) on the value array. -/
def applyBcJ [Zero R] [One R] (bc : DirichletBC R) (m : CsrMaps) (data : List R)
    (symmetric : Bool) : List R :=
  let isBcRow := gather false bc.mask m.rowOfSlot
  let zeroMask := if symmetric then List.zipWith (· || ·) isBcRow (gather false bc.mask m.indices)
    else isBcRow
  let data := List.zipWith (fun z x => if z then 0 else x) zeroMask data
  (gather (-1) m.diagSlots bc.rows).foldl (fun acc s => setAtInt acc s 1) data

/-- `apply_boundary_to_res` (`/repo/feax/DCboundary.py:202-251`). -/
def applyBcRes [Ring R] (bc : DirichletBC R) (res sol : List R) (scale : R) : List R :=
  scatterSet res bc.rows
    (List.zipWith (fun s v => s - v * scale) (gather 0 sol bc.rows) bc.vals)

/-- `create_J_bc_csr_parametric` (`/repo/feax/assembler.py:1694-1714`) given the assembled values. -/
def jacBc [Zero R] [One R] (p : Problem) (bc : DirichletBC R) (J : CSRMatrix R) (symmetric : Bool) :
    CSRMatrix R :=
  J.withData (applyBcJ bc p.maps J.data symmetric)

end apply

end Verif.Model
