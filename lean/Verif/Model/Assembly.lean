import Verif.Model.Csr
import Verif.Model.Layout

/-!
# `feax.assembler`: batched assembly of residual and CSR Jacobian

A per-item kernel is any function `f : α → Local R` from the item's inputs (local solution,
geometry, parameters) to the local residual and the local Jacobian, flattened row-major.  Nothing
else is assumed about it except, in the theorems, its output lengths (static shapes in JAX).
-/

namespace Verif.Model

/-- Output of `_value_and_jacfwd` for one cell/face: residual and row-major flattened Jacobian. -/
structure Local (R : Type*) where
  res : List R
  jac : List R
deriving DecidableEq, Repr

/-- `MatrixView` (`/repo/feax/problem.py:22-35`). -/
inductive MatrixView
  | full | upper | lower
deriving DecidableEq, Repr

/-- The mask `J >= I` / `J <= I` (`/repo/feax/problem.py:218-231`). -/
def MatrixView.keep (v : MatrixView) (i j : ℕ) : Bool :=
  match v with
  | .full => true
  | .upper => decide (i ≤ j)
  | .lower => decide (j ≤ i)

/-- `Problem`: variables, number of cells, per boundary the cell of each selected face, view. -/
structure Problem where
  vars : List Var
  numCells : ℕ
  faceCells : List (List ℕ)
  view : MatrixView
deriving DecidableEq, Repr

/-- `onp.repeat(inds[:, :, None], ndof, axis=2).reshape(-1)` (`/repo/feax/problem.py:188,205`). -/
def rowsOfInds (inds : List (List ℕ)) : List ℕ :=
  (inds.map (fun d => (d.map (fun r => d.map (fun _ => r))).flatten)).flatten

/-- `onp.repeat(inds[:, None, :], ndof, axis=1).reshape(-1)` (`/repo/feax/problem.py:189,206`). -/
def colsOfInds (inds : List (List ℕ)) : List ℕ :=
  (inds.map (fun d => (d.map (fun _ => d)).flatten)).flatten

/-- All element DOF rows: volume first, then each boundary (`/repo/feax/problem.py:186-212`). -/
def Problem.volInds (p : Problem) : List (List ℕ) := buildInds p.vars p.numCells

/-- DOF rows of the boundary faces, boundaries in order (`/repo/feax/problem.py:202-212`). -/
def Problem.faceInds (p : Problem) : List (List ℕ) :=
  (p.faceCells.map (buildFaceInds p.vars)).flatten

/-- `Problem.I` (`/repo/feax/problem.py:188,208`). -/
def Problem.I (p : Problem) : List ℕ := rowsOfInds p.volInds ++ rowsOfInds p.faceInds

/-- `Problem.J` (`/repo/feax/problem.py:189,209`). -/
def Problem.J (p : Problem) : List ℕ := colsOfInds p.volInds ++ colsOfInds p.faceInds

/-- `filter_indices` (`/repo/feax/problem.py:218-231`); for FULL the code skips the filter, which is
the same as keeping every position. -/
def Problem.filterIndices (p : Problem) : List ℕ :=
  (List.range p.I.length).filter (fun k => p.view.keep (p.I.getD k 0) (p.J.getD k 0))

/-- `num_total_dofs_all_vars`. -/
def Problem.n (p : Problem) : ℕ := numDofs p.vars

/-- `ndof_vol = sum(fe.num_nodes * fe.vec)` (`/repo/feax/problem.py:414`): DOFs per element. -/
def Problem.ndof (p : Problem) : ℕ := (p.vars.map (fun v => v.nn * v.vec)).sum

/-- The CSR structure stored on the problem (`/repo/feax/problem.py:357-484`). -/
def Problem.maps (p : Problem) : CsrMaps :=
  buildCsrMaps p.n (gather 0 p.I p.filterIndices) (gather 0 p.J p.filterIndices) p.I p.J

/-- `_batching` (`/repo/feax/assembler.py:828-840`): `(batch_size, num_cuts, n_padded)`. -/
def batching (nItems batch : ℕ) : ℕ × ℕ × ℕ :=
  if nItems = 0 then (0, 0, 0)
  else
    let bs := min batch nItems
    let cuts := (nItems + bs - 1) / bs
    (bs, cuts, cuts * bs)

/-- `_pad_axis0` (`/repo/feax/assembler.py:843-848`); `z` is the all-zero row. -/
def padAxis0 {α : Type*} (xs : List α) (pad : ℕ) (z : α) : List α := xs ++ List.replicate pad z

/-- `_scan_vmap_batched` (`/repo/feax/assembler.py:851-904`). `z` is the padding item. The two
`jac_flag` branches do the same with a value or a (value, jacobian) pair. -/
def scanVmapBatched {α β : Type*} (f : α → β) (z : α) (items : List α) (batch : ℕ) : List β :=
  let b := batching items.length batch
  if b.2.1 ≤ 1 then items.map f
  else
    let pad := b.2.2 - items.length
    let batched := reshapeRows b.2.1 b.1 (padAxis0 items pad z)
    ((batched.map (fun xs => xs.map f)).flatten).take items.length

/-- `_vol_slot_sort` / `_res_vol_slot_sort` (`/repo/feax/assembler.py:1164-1250`): per batch, the
stable sort permutation of the (flattened) target ids and the sorted ids. `ids` are the per-cell
target rows of width `w`; padded cells target `discard`.
Simplification: the flat single-batch arrays are one row here. -/
def slotSort (ids : List (List ℕ)) (w discard batch : ℕ) : List (List ℕ × List ℕ) :=
  let b := batching ids.length batch
  if b.2.1 ≤ 1 then
    let flat := ids.flatten
    let perm := argsort flat
    [(perm, gather 0 flat perm)]
  else
    let pad := b.2.2 - ids.length
    let padded := padAxis0 ids pad (List.replicate w discard)
    (reshapeRows b.2.1 b.1 padded).map (fun rows =>
      let flat := rows.flatten
      let perm := argsort flat
      (perm, gather 0 flat perm))

section
variable {R : Type*} [AddCommMonoid R]

/-- Elementwise vector sum `a + b`. -/
def vadd (a b : List R) : List R := List.zipWith (· + ·) a b

/-- The volume scan of `_assemble_volume_csr_data` (`/repo/feax/assembler.py:1253-1318`), and each of
the two accumulators of `_assemble_volume_res_and_J` (`/repo/feax/assembler.py:1407-1480`): per batch
`carry + segment_sum(vals[bperm], bsorted, num)`. `sorts` is the precomputed slot sort; `vals` picks
the flattened local values of one item. -/
def volScan {α : Type*} (vals : α → List R) (z : α) (items : List α)
    (sorts : List (List ℕ × List ℕ)) (num batch : ℕ) : List R :=
  let b := batching items.length batch
  let carry0 := List.replicate num 0
  if b.2.1 ≤ 1 then
    let s := sorts.headD ([], [])
    vadd carry0 (segmentSum (gather 0 (items.map vals).flatten s.1) s.2 num)
  else
    let pad := b.2.2 - items.length
    let batched := reshapeRows b.2.1 b.1 (padAxis0 items pad z)
    (batched.zip sorts).foldl
      (fun carry bx =>
        vadd carry (segmentSum (gather 0 (bx.1.map vals).flatten bx.2.1) bx.2.2 num))
      carry0

/-- `csr_volume_slots` (`/repo/feax/problem.py:458-460`). -/
def Problem.volSlots (p : Problem) : List (List ℕ) :=
  reshapeRows p.numCells (p.ndof * p.ndof) (p.maps.fullSlot.take (p.numCells * (p.ndof * p.ndof)))

/-- `face_slots_np` (`/repo/feax/problem.py:462`). -/
def Problem.faceSlots (p : Problem) : List ℕ :=
  p.maps.fullSlot.drop (p.numCells * (p.ndof * p.ndof))

/-- `compute_face` (`/repo/feax/assembler.py:973-1055`): per boundary, batched face kernel. `faces`
lists each boundary's face items; `kf i` is the surface kernel of boundary `i`. -/
def computeFace {β : Type*} (kf : ℕ → β → Local R) (zf : β) (faces : List (List β)) (batch : ℕ) :
    List (List (Local R)) :=
  faces.zipIdx.map (fun q => scanVmapBatched (kf q.2) zf q.1 batch)

/-- `_get_J_csr` (`/repo/feax/assembler.py:1362-1404`) wrapped by `get_jacobian`
(`/repo/feax/assembler.py:1517-1565`). `surfaceJacZero` is `problem._surface_jac_zero`. -/
def getJacobian {α β : Type*} (p : Problem) (kv : α → Local R) (kf : ℕ → β → Local R)
    (zv : α) (zf : β) (cellsIn : List α) (facesIn : List (List β)) (surfaceJacZero : Bool)
    (batch : ℕ) : CSRMatrix R :=
  let m := p.maps
  let vol := volScan (fun a => (kv a).jac) zv cellsIn
    (slotSort p.volSlots (p.ndof * p.ndof) m.nse batch) (m.nse + 1) batch
  let faceJacs := if surfaceJacZero then [] else computeFace kf zf facesIn batch
  let data :=
    if faceJacs.isEmpty then vol
    else
      let faceVals := (faceJacs.map (fun fs => (fs.map (·.jac)).flatten)).flatten
      let perm := argsort p.faceSlots
      vadd vol (segmentSum (gather 0 faceVals perm) (gather 0 p.faceSlots perm) (m.nse + 1))
  { data := data.take m.nse, indptr := m.indptr, indices := m.indices,
    numRows := p.n, numCols := p.n }

/-- `_assemble_jacobian_values` + `_csr_data_from_values`
(`/repo/feax/assembler.py:1106-1161`): the reference (fully materialised) route. -/
def getJacobianRef {α β : Type*} (p : Problem) (kv : α → Local R) (kf : ℕ → β → Local R)
    (zv : α) (zf : β) (cellsIn : List α) (facesIn : List (List β)) (batch : ℕ) : CSRMatrix R :=
  let m := p.maps
  let v := ((scanVmapBatched kv zv cellsIn batch).map (·.jac)).flatten ++
    ((computeFace kf zf facesIn batch).map (fun fs => (fs.map (·.jac)).flatten)).flatten
  let vf := gather 0 v p.filterIndices
  { data := segmentSum (gather 0 vf m.perm) m.segIds m.nse, indptr := m.indptr,
    indices := m.indices, numRows := p.n, numCols := p.n }

/-- `_res_scatter_dofs_np` (`/repo/feax/problem.py:195-214`). -/
def Problem.resDofs (p : Problem) : List ℕ := p.volInds.flatten ++ p.faceInds.flatten

/-- `get_res` (`/repo/feax/assembler.py:1618-1667`) through `compute_residual_vars_helper`
(`/repo/feax/assembler.py:1058-1103`), before unflattening. -/
def getRes {α β : Type*} (p : Problem) (kv : α → Local R) (kf : ℕ → β → Local R)
    (zv : α) (zf : β) (cellsIn : List α) (facesIn : List (List β)) (batch : ℕ) : List R :=
  let v := ((scanVmapBatched kv zv cellsIn batch).map (·.res)).flatten ++
    ((computeFace kf zf facesIn batch).map (fun fs => (fs.map (·.res)).flatten)).flatten
  let perm := argsort p.resDofs
  segmentSum (gather 0 v perm) (gather 0 p.resDofs perm) p.n

/-- `_get_res_J_csr` (`/repo/feax/assembler.py:1483-1514`): fused residual and Jacobian, one kernel
evaluation per item. -/
def getResJ {α β : Type*} (p : Problem) (kv : α → Local R) (kf : ℕ → β → Local R)
    (zv : α) (zf : β) (cellsIn : List α) (facesIn : List (List β)) (batch : ℕ) :
    List R × CSRMatrix R :=
  let m := p.maps
  let jc := volScan (fun a => (kv a).jac) zv cellsIn
    (slotSort p.volSlots (p.ndof * p.ndof) m.nse batch) (m.nse + 1) batch
  let resVolDofs := reshapeRows p.numCells p.ndof (p.resDofs.take (p.numCells * p.ndof))
  let rc := volScan (fun a => (kv a).res) zv cellsIn
    (slotSort resVolDofs p.ndof p.n batch) (p.n + 1) batch
  let faces := computeFace kf zf facesIn batch
  let resFaceDofs := p.resDofs.drop (p.numCells * p.ndof)
  let jc' :=
    if faces.isEmpty then jc
    else
      let vals := (faces.map (fun fs => (fs.map (·.jac)).flatten)).flatten
      let perm := argsort p.faceSlots
      vadd jc (segmentSum (gather 0 vals perm) (gather 0 p.faceSlots perm) (m.nse + 1))
  let rc' :=
    if faces.isEmpty then rc
    else
      let vals := (faces.map (fun fs => (fs.map (·.res)).flatten)).flatten
      let perm := argsort resFaceDofs
      vadd rc (segmentSum (gather 0 vals perm) (gather 0 resFaceDofs perm) (p.n + 1))
  (rc'.take p.n,
   { data := jc'.take m.nse, indptr := m.indptr, indices := m.indices,
     numRows := p.n, numCols := p.n })

end

end Verif.Model
