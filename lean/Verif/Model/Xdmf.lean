import Verif.Model.Solution

/-!
# `feax.utils.XDMFWriter`: a time series in an HDF5 file with an XML index

File-system model: the HDF5 file is a table of datasets and a list of frame groups; the XML file is the list of frames
it names. `h5py` raises `ValueError` for a group or dataset that exists. Simplifications: field names contain no `/`;
the time is converted without failure; values are opaque.
-/

namespace Verif.Model

/-- `Center="Node"` or `Center="Cell"`: the `point` and `cell` sub-groups. -/
inductive Center where
  | node
  | cell
  deriving DecidableEq

/-- A field passed to `write_iteration`: name, array shape, values. -/
structure XField (α : Type) where
  name : String
  shape : List ℕ
  data : α
  deriving DecidableEq

/-- The arguments of one `write_iteration` call; `None` and `[]` behave the same there. -/
structure XCall (T α : Type) where
  time : T
  points : List (XField α)
  cells : List (XField α)

/-- One element of `self._frames` (`/repo/feax/utils.py:374`). -/
structure XFrame (T : Type) where
  time : T
  id : ℕ
  points : List (String × List ℕ)
  cells : List (String × List ℕ)
  deriving DecidableEq

/-- Path of a dataset: `frame_{id}/point/{name}` or `frame_{id}/cell/{name}`. -/
abbrev H5Path := ℕ × Center × String

/-- One `<Attribute>` of the XML. -/
structure XAttr where
  name : String
  center : Center
  type : String
  dims : List ℕ
  path : H5Path
  deriving DecidableEq

/-- One `<Grid>` of the XML collection. -/
structure XGrid (T : Type) where
  time : T
  attrs : List XAttr
  deriving DecidableEq

/-- The writer object and the two files (`/repo/feax/utils.py:239-301`). -/
structure XWriter (T α : Type) where
  nPoints : ℕ
  nCells : ℕ
  isOpen : Bool
  groups : List ℕ
  h5 : List (H5Path × List ℕ × α)
  frames : Option (List (XFrame T))
  frameId : ℕ
  signature : Option (List String × List String)
  xml : Option (List (XGrid T))

variable {T α : Type}

/-- `_normalize_field` (`/repo/feax/utils.py:133-167`): the shape stored, or the exception. -/
def normalizeShape (n : ℕ) (shape : List ℕ) : Except PyErr (List ℕ) :=
  match shape with
  | [] => .error .indexError
  | a :: rest =>
    if a ≠ n then .error .valueError
    else if rest = [2, 2] then .ok [a, 3, 3]
    else if 2 ≤ rest.length ∧ rest ≠ [3, 3] then .error .valueError
    else .ok shape

/-- `__enter__` (`/repo/feax/utils.py:293-301`): the HDF5 file is truncated; the signature is not reset. Opening a file
that is still open raises `OSError`, here `runtimeError`. -/
def XWriter.enter (w : XWriter T α) : Except PyErr (XWriter T α) :=
  if w.isOpen then .error .runtimeError
  else .ok { w with isOpen := true, groups := [], h5 := [], frames := some [], frameId := 0 }

/-- The loop over one list of fields (`/repo/feax/utils.py:361-372`): each normalised, stored and recorded. The file is
returned also when the loop raises. -/
def writeFields (n id : ℕ) (c : Center) :
    List (XField α) → List (H5Path × List ℕ × α) → List (H5Path × List ℕ × α) × Except PyErr (List (String × List ℕ))
  | [], h5 => (h5, .ok [])
  | f :: fs, h5 =>
    match normalizeShape n f.shape with
    | .error e => (h5, .error e)
    | .ok s =>
      if h5.any (fun d => d.1 == (id, c, f.name)) then (h5, .error .valueError)
      else
        let r := writeFields n id c fs (h5 ++ [((id, c, f.name), s, f.data)])
        (r.1, r.2.map fun recs => (f.name, s) :: recs)

/-- `write_iteration` (`/repo/feax/utils.py:317-375`): the object and file after the call, and how it ended. -/
def XWriter.write (w : XWriter T α) (c : XCall T α) : XWriter T α × Except PyErr Unit :=
  if w.isOpen = false then (w, .error .runtimeError)
  else if w.frameId ∈ w.groups then (w, .error .valueError)
  else
    let w1 := { w with groups := w.frameId :: w.groups }
    let sig := (c.points.map (·.name), c.cells.map (·.name))
    if w.signature.isSome ∧ w.signature ≠ some sig then (w1, .error .valueError)
    else
      let w2 := { w1 with signature := some sig }
      let rp := writeFields w.nPoints w.frameId .node c.points w2.h5
      match rp.2 with
      | .error e => ({ w2 with h5 := rp.1 }, .error e)
      | .ok ps =>
        let rc := writeFields w.nCells w.frameId .cell c.cells rp.1
        match rc.2 with
        | .error e => ({ w2 with h5 := rc.1 }, .error e)
        | .ok cs =>
          ({ w2 with h5 := rc.1, frames := w.frames.map fun l => l ++ [⟨c.time, w.frameId, ps, cs⟩],
                     frameId := w.frameId + 1 }, .ok ())

/-- `_attribute_type` (`/repo/feax/utils.py:379-392`). -/
def attributeType (shape : List ℕ) : Except PyErr (String × List ℕ) :=
  match shape with
  | [n] => .ok ("Scalar", [n, 1])
  | [n, k] =>
    if k = 1 then .ok ("Scalar", [n, k])
    else if k = 2 ∨ k = 3 then .ok ("Vector", [n, k])
    else if k = 6 then .ok ("Tensor6", [n, k])
    else if k = 9 then .ok ("Tensor", [n, k])
    else .error .valueError
  | [n, 3, 3] => .ok ("Tensor", [n, 9])
  | _ => .error .valueError

/-- The attributes of one frame (`/repo/feax/utils.py:430-456`). -/
def frameAttrs (id : ℕ) (c : Center) (recs : List (String × List ℕ)) : Except PyErr (List XAttr) :=
  recs.mapM fun r => (attributeType r.2).map fun td => ⟨r.1, c, td.1, td.2, (id, c, r.1)⟩

/-- One grid. -/
def frameGrid (f : XFrame T) : Except PyErr (XGrid T) := do
  let ps ← frameAttrs f.id .node f.points
  let cs ← frameAttrs f.id .cell f.cells
  .ok ⟨f.time, ps ++ cs⟩

/-- `__exit__` without a pending exception (`/repo/feax/utils.py:303-313`, `394-461`): the file is closed, then the XML
is built completely and written. -/
def XWriter.exit (w : XWriter T α) : XWriter T α × Except PyErr Unit :=
  let w1 := { w with isOpen := false }
  match w.frames with
  | none => (w1, .error .typeError)
  | some fs =>
    match fs.mapM frameGrid with
    | .error e => (w1, .error e)
    | .ok gs => ({ w1 with xml := some gs }, .ok ())

/-- A sequence of calls inside the `with` block, each exception caught by the user: final writer and, per call, whether
it was accepted. -/
def XWriter.writes (w : XWriter T α) : List (XCall T α) → XWriter T α × List Bool
  | [] => (w, [])
  | c :: cs =>
    let r := w.write c
    let rest := r.1.writes cs
    (rest.1, r.2.toBool :: rest.2)

/-- Element type inferred from the connectivity (`/repo/feax/utils.py:52-67`, `248-266`). -/
def inferElementType (nodesPerCell dim : ℕ) : Except PyErr String :=
  if nodesPerCell = 3 then .ok "TRI3"
  else if nodesPerCell = 4 then .ok (if dim = 2 then "QUAD4" else "TET4")
  else if nodesPerCell = 6 then .ok "TRI6"
  else if nodesPerCell = 8 then .ok "HEX8"
  else if nodesPerCell = 10 then .ok "TET10"
  else if nodesPerCell = 20 then .ok "HEX20"
  else .error .valueError

end Verif.Model
