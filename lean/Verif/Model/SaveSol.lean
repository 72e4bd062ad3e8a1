import Verif.Model.Xdmf

/-!
# `feax.utils.save_sol`: one VTK file

Arrays are a shape and their values row by row. The conversion to `float32` is a function of the values. meshio is not modelled: the
result is what is handed to `out_mesh.write`.
-/

namespace Verif.Model

/-- A numpy array. -/
structure NpArr (α : Type) where
  shape : List ℕ
  data : List α
  deriving DecidableEq

/-- `get_meshio_cell_type` (`/repo/feax/mesh.py:220-271`). -/
def meshioCellType (e : String) : Except PyErr String :=
  if e = "TET4" then .ok "tetra"
  else if e = "TET10" then .ok "tetra10"
  else if e = "HEX8" then .ok "hexahedron"
  else if e = "HEX27" then .ok "hexahedron27"
  else if e = "HEX20" then .ok "hexahedron20"
  else if e = "TRI3" then .ok "triangle"
  else if e = "TRI6" then .ok "triangle6"
  else if e = "QUAD4" then .ok "quad"
  else if e = "QUAD8" then .ok "quad8"
  else if e = "QUAD9" then .ok "quad9"
  else .error .notImplemented

variable {α β : Type}

/-- `d[name] = x` of a Python dict. -/
def fieldSet (d : List (String × β)) (name : String) (x : β) : List (String × β) :=
  if d.any (fun p => p.1 == name) then d.map fun p => if p.1 = name then (name, x) else p else d ++ [(name, x)]

/-- One cell field (`/repo/feax/utils.py:91-113`): shape check, then reshaping by the number of dimensions. `reshape(n, -1)` of an
array without rows raises. -/
def prepareCell (conv : α → β) (n : ℕ) (a : NpArr α) : Except PyErr (NpArr β) :=
  match a.shape with
  | [] => .error .indexError
  | m :: rest =>
    if m ≠ n then .error .valueError
    else if rest.length = 2 then
      if n = 0 then .error .valueError else .ok ⟨[n, a.shape.prod / n], a.data.map conv⟩
    else if rest.length = 1 then .ok ⟨a.shape, a.data.map conv⟩
    else if a.shape.prod = n * 1 then .ok ⟨[n, 1], a.data.map conv⟩ else .error .valueError

/-- One point field (`/repo/feax/utils.py:118-128`). -/
def preparePoint (conv : α → β) (n : ℕ) (a : NpArr α) : Except PyErr (NpArr β) :=
  match a.shape with
  | [] => .error .indexError
  | m :: _ => if m ≠ n then .error .valueError else .ok ⟨a.shape, a.data.map conv⟩

/-- The loop over one list of fields (`/repo/feax/utils.py:89-113`, `118-128`). -/
def prepareAll (prep : NpArr α → Except PyErr (NpArr β)) :
    List (String × NpArr α) → List (String × NpArr β) → Except PyErr (List (String × NpArr β))
  | [], d => .ok d
  | f :: fs, d =>
    match prep f.2 with
    | .error e => .error e
    | .ok a => prepareAll prep fs (fieldSet d f.1 a)

/-- What is written. -/
structure VtkFile (β : Type) where
  cellType : String
  cellData : List (String × NpArr β)
  pointData : List (String × NpArr β)

/-- An optional list of fields: `None` leaves the empty dict of meshio. -/
def prepareOpt (prep : NpArr α → Except PyErr (NpArr β)) : Option (List (String × NpArr α)) → Except PyErr (List (String × NpArr β))
  | none => .ok []
  | some fs => prepareAll prep fs []

/-- `save_sol` (`/repo/feax/utils.py:24-130`): whether the directory of the file has been
seen to (`hasDir`: the path has a directory part), and the file or the exception. -/
def saveSol (conv : α → β) (hasDir : Bool) (nodesPerCell dim nPoints nCells : ℕ) (cells points : Option (List (String × NpArr α))) :
    Bool × Except PyErr (VtkFile β) :=
  if cells.isNone && points.isNone then (false, .error .valueError)
  else
    match inferElementType nodesPerCell dim with
    | .error e => (false, .error e)
    | .ok ele =>
      match meshioCellType ele with
      | .error e => (false, .error e)
      | .ok ct =>
        (hasDir, do
          let c ← prepareOpt (prepareCell conv nCells) cells
          let p ← prepareOpt (preparePoint conv nPoints) points
          pure ⟨ct, c, p⟩)

end Verif.Model
