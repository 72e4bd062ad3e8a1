import Verif.Model.Assembly
import Verif.Model.Solution

/-!
# Lifecycle of the assembly scratch arrays

The mutable attributes of a `Problem` that assembly without a `TracedStructure` reads, and the operations that fill,
use and release them. The static arrays that are never released (`csr_indptr`, `csr_indices`, `csr_face_perm`,
`res_perm`, …) are functions of `p`.
-/

namespace Verif.Model

/-- A slot sort: per batch, permutation and sorted targets. -/
abbrev SlotSort := List (List ℕ × List ℕ)

/-- The mutable attributes of the problem (`/repo/feax/problem.py:480-485`, `486-529`): `scratch` stands for the arrays
released by every call of `free_assembly_scratch`. -/
structure ProbState where
  scratch : Bool
  volSlots : Option (List (List ℕ))
  resVolDofs : Option (List (List ℕ))
  volCache : Option SlotSort
  resCache : Option SlotSort

/-- `Problem.__post_init__` (`/repo/feax/problem.py:440-485`). -/
def ProbState.fresh (p : Problem) : ProbState :=
  { scratch := true
    volSlots := some p.volSlots
    resVolDofs := some (reshapeRows p.numCells p.ndof (p.resDofs.take (p.numCells * p.ndof)))
    volCache := none
    resCache := none }

/-- `free_assembly_scratch` (`/repo/feax/problem.py:486-529`). -/
def ProbState.free (s : ProbState) (dropMaps : Bool) : ProbState :=
  if dropMaps then { scratch := false, volSlots := none, resVolDofs := none, volCache := none, resCache := none }
  else { s with scratch := false }

/-- `_vol_slot_sort` (`/repo/feax/assembler.py:1164-1208`): cached sort, or `RuntimeError`, or the sort just computed. -/
def ProbState.volSort (p : Problem) (batch : ℕ) (s : ProbState) : ProbState × Except PyErr SlotSort :=
  match s.volCache with
  | some c => (s, .ok c)
  | none =>
    match s.volSlots with
    | none => (s, .error .runtimeError)
    | some v =>
      let out := slotSort v (p.ndof * p.ndof) p.maps.nse batch
      ({ s with volCache := some out }, .ok out)

/-- `_res_vol_slot_sort` (`/repo/feax/assembler.py:1211-1250`). -/
def ProbState.resSort (p : Problem) (batch : ℕ) (s : ProbState) : ProbState × Except PyErr SlotSort :=
  match s.resCache with
  | some c => (s, .ok c)
  | none =>
    match s.resVolDofs with
    | none => (s, .error .runtimeError)
    | some v =>
      let out := slotSort v p.ndof p.n batch
      ({ s with resCache := some out }, .ok out)

/-- The leaves of a `TracedStructure` that are not functions of `p` alone (`/repo/feax/traced_structure.py:57-95`). -/
structure TracedSorts where
  vol : SlotSort
  res : SlotSort

/-- `TracedStructure.from_problem` (`/repo/feax/traced_structure.py:98-164`). -/
def ProbState.fromProblem (p : Problem) (batch : ℕ) (s : ProbState) (freeScratch : Bool) :
    ProbState × Except PyErr TracedSorts :=
  match s.volSort p batch with
  | (s1, .error e) => (s1, .error e)
  | (s1, .ok v) =>
    match s1.resSort p batch with
    | (s2, .error e) => (s2, .error e)
    | (s2, .ok r) => (if freeScratch then s2.free true else s2, .ok ⟨v, r⟩)

section
variable {R : Type*} [AddCommMonoid R]

/-- `_get_J_csr` (`/repo/feax/assembler.py:1362-1404`) with the volume sort it was given. -/
def jacFrom {α β : Type*} (p : Problem) (vs : SlotSort) (kv : α → Local R) (kf : ℕ → β → Local R)
    (zv : α) (zf : β) (cellsIn : List α) (facesIn : List (List β)) (surfaceJacZero : Bool) (batch : ℕ) : CSRMatrix R :=
  let m := p.maps
  let vol := volScan (fun a => (kv a).jac) zv cellsIn vs (m.nse + 1) batch
  let faceJacs := if surfaceJacZero then [] else computeFace kf zf facesIn batch
  let data :=
    if faceJacs.isEmpty then vol
    else
      let faceVals := (faceJacs.map (fun fs => (fs.map (·.jac)).flatten)).flatten
      let perm := argsort p.faceSlots
      vadd vol (segmentSum (gather 0 faceVals perm) (gather 0 p.faceSlots perm) (m.nse + 1))
  { data := data.take m.nse, indptr := m.indptr, indices := m.indices,
    numRows := p.n, numCols := p.n }

/-- `_get_res_J_csr` (`/repo/feax/assembler.py:1483-1514`) with the sorts it was given. -/
def resJFrom {α β : Type*} (p : Problem) (vs rs : SlotSort) (kv : α → Local R) (kf : ℕ → β → Local R)
    (zv : α) (zf : β) (cellsIn : List α) (facesIn : List (List β)) (batch : ℕ) : List R × CSRMatrix R :=
  let m := p.maps
  let jc := volScan (fun a => (kv a).jac) zv cellsIn vs (m.nse + 1) batch
  let rc := volScan (fun a => (kv a).res) zv cellsIn rs (p.n + 1) batch
  let faces := computeFace kf zf facesIn batch
  let resFaceDofs := p.resDofs.drop (p.numCells * p.ndof)
  let jc' :=
    if faces.isEmpty then jc
    else
      let vals := (faces.map (fun fs => (fs.map (·.jac)).flatten)).flatten
      let perm := argsort p.faceSlots
      vadd jc (segmentSum (gather 0 vals perm) (gather 0 p.faceSlots perm) (m.nse + 1))
  let rc' :=
    if faces.isEmpty then rc
    else
      let vals := (faces.map (fun fs => (fs.map (·.res)).flatten)).flatten
      let perm := argsort resFaceDofs
      vadd rc (segmentSum (gather 0 vals perm) (gather 0 resFaceDofs perm) (p.n + 1))
  (rc'.take p.n,
    { data := jc'.take m.nse, indptr := m.indptr, indices := m.indices, numRows := p.n, numCols := p.n })

/-- Arguments of an assembly call. -/
structure AsmArgs (R α β : Type*) where
  kv : α → Local R
  kf : ℕ → β → Local R
  zv : α
  zf : β
  cells : List α
  faces : List (List β)
  surfaceJacZero : Bool

/-- `get_jacobian(problem, …)` without a `TracedStructure`. -/
def ProbState.jacobian {α β : Type*} (p : Problem) (batch : ℕ) (s : ProbState) (a : AsmArgs R α β) :
    ProbState × Except PyErr (CSRMatrix R) :=
  match s.volSort p batch with
  | (s1, .error e) => (s1, .error e)
  | (s1, .ok v) => (s1, .ok (jacFrom p v a.kv a.kf a.zv a.zf a.cells a.faces a.surfaceJacZero batch))

/-- The fused residual and Jacobian without a `TracedStructure`. -/
def ProbState.residualJacobian {α β : Type*} (p : Problem) (batch : ℕ) (s : ProbState) (a : AsmArgs R α β) :
    ProbState × Except PyErr (List R × CSRMatrix R) :=
  match s.volSort p batch with
  | (s1, .error e) => (s1, .error e)
  | (s1, .ok v) =>
    match s1.resSort p batch with
    | (s2, .error e) => (s2, .error e)
    | (s2, .ok r) => (s2, .ok (resJFrom p v r a.kv a.kf a.zv a.zf a.cells a.faces batch))

/-- `get_jacobian(problem, …, ts=ts)`. -/
def TracedSorts.jacobian {α β : Type*} (p : Problem) (batch : ℕ) (t : TracedSorts) (a : AsmArgs R α β) : CSRMatrix R :=
  jacFrom p t.vol a.kv a.kf a.zv a.zf a.cells a.faces a.surfaceJacZero batch

/-- The fused residual and Jacobian with a `TracedStructure`. -/
def TracedSorts.residualJacobian {α β : Type*} (p : Problem) (batch : ℕ) (t : TracedSorts) (a : AsmArgs R α β) :
    List R × CSRMatrix R :=
  resJFrom p t.vol t.res a.kv a.kf a.zv a.zf a.cells a.faces batch

end

/-- Operations on one problem object. -/
inductive LifeOp where
  | free (dropMaps : Bool)
  | build (freeScratch : Bool)
  | assembleJ
  | assembleRJ
  deriving DecidableEq

/-- One operation: new attributes, and the `TracedStructure` if one was built. -/
def ProbState.step (p : Problem) (batch : ℕ) (s : ProbState) : LifeOp → ProbState × Option TracedSorts
  | .free d => (s.free d, none)
  | .build f =>
    let r := s.fromProblem p batch f
    (r.1, r.2.toOption)
  | .assembleJ => ((s.volSort p batch).1, none)
  | .assembleRJ =>
    match s.volSort p batch with
    | (s1, .error _) => (s1, none)
    | (s1, .ok _) => ((s1.resSort p batch).1, none)

/-- A history: final attributes and all structures built on the way. -/
def ProbState.run (p : Problem) (batch : ℕ) (s : ProbState) : List LifeOp → ProbState × List TracedSorts
  | [] => (s, [])
  | o :: os =>
    let r := s.step p batch o
    let rest := r.1.run p batch os
    (rest.1, r.2.toList ++ rest.2)

end Verif.Model
