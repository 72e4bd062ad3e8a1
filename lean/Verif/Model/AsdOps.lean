import Verif.Model.Asd

/-!
# `feax.asd`: Galerkin patterns, coloured assembly, pattern verification

`asdex` is not part of the repository: a colouring is an argument of the model, with the contract stated in
`Spec.Asd.Proper`.
-/

namespace Verif.Model.Asd

open Verif.Model

/-- `pattern.rows`, `pattern.cols` of a scipy pattern through `_sparsity_from_scipy` (`/repo/feax/asd.py:82-86`):
`tocoo` lists the slots in storage order. -/
def cooRows (A : BoolCsr) : List ℕ := repeatByPtr A.indptr

/-- A scipy boolean pattern handed to another function of the module (`/repo/feax/asd.py:65-66`): `astype(bool)` of the
stored values. -/
def storedOf (A : BoolCsr) : StoredPattern :=
  ⟨A.nr, A.nc, ((cooRows A).zip A.indices).zipWith (fun rc v => (rc.1, rc.2, v)) A.vals⟩

/-- The stored entries of the product `Pᵀ K P` of nonnegative matrices (`/repo/feax/asd.py:146`): every path
`(a, i) ∈ P`, `(a, b) ∈ K`, `(b, j) ∈ P`; the value is nonzero when one of the paths has nonzero factors. Simplification:
paths whose product is zero stay stored with value `False`. -/
def triplePaths (P K : StoredPattern) : List (ℕ × ℕ × Bool) :=
  P.entries.flatMap fun p => (K.entries.filter fun k => k.1 == p.1).flatMap fun k =>
    (P.entries.filter fun q => q.1 == k.2.1).map fun q => (p.2.1, q.2.1, p.2.2 && k.2.2 && q.2.2)

/-- `reduced_operator_pattern` (`/repo/feax/asd.py:136-147`); scipy raises ValueError on mismatched shapes. -/
def reducedOperatorPattern (P K : StoredPattern) : Except PyErr BoolCsr :=
  let Pp := storedOf (toScipyPattern P)
  let Kp := storedOf (toScipyPattern K)
  if P.nr ≠ K.nr ∨ K.nc ≠ P.nr then .error .valueError
  else .ok (toScipyPattern ⟨P.nc, P.nc, triplePaths Pp Kp⟩)

/-- `connectivity_pattern` (`/repo/feax/asd.py:119-133`). `full` says `problem.matrix_view is MatrixView.FULL`. -/
def connectivityPattern (full : Bool) (n : ℕ) (indptr indices : List ℕ) : Except PyErr BoolCsr :=
  if full then .ok ⟨indptr, indices, indices.map fun _ => true, n, n⟩ else .error .valueError

/-- What `asdex.jacobian_coloring_from_sparsity` returns (used at `/repo/feax/asd.py:229, 267`): the sparsity it was
given, and one colour per column (forward) or per row (reverse). -/
structure Coloring where
  rows : List ℕ
  cols : List ℕ
  nr : ℕ
  nc : ℕ
  forward : Bool
  numColors : ℕ
  colors : List ℕ

/-- The seed of one colour: the sum of the basis vectors of that colour. -/
def Coloring.seed {R : Type} [Zero R] [One R] (c : Coloring) (k : ℕ) : List R :=
  (List.range (if c.forward then c.nc else c.nr)).map fun j => if c.colors.getD j 0 = k then 1 else 0

/-- `asdex.compressed_jacobian_from_coloring` (used at `/repo/feax/asd.py:230, 271`): one forward (`jvp`) or reverse
(`vjp`) product per colour. -/
def Coloring.compressed {R : Type} [Zero R] [One R] (c : Coloring) (jvp vjp : List R → List R) : List (List R) :=
  (List.range c.numColors).map fun k => if c.forward then jvp (c.seed k) else vjp (c.seed k)

/-- `asdex.decompress_data` (used at `/repo/feax/asd.py:206`): each entry read from the product of its colour. -/
def Coloring.decompress {R : Type} [Zero R] (c : Coloring) (B : List (List R)) : List R :=
  List.zipWith (fun r q => if c.forward then (B.getD (c.colors.getD q 0) []).getD r 0
    else (B.getD (c.colors.getD r 0) []).getD q 0) c.rows c.cols

/-- `_csr_producer` (`/repo/feax/asd.py:194-210`), the returned function at one point given by its products. -/
def csrProducer {R : Type} [Zero R] [One R] (c : Coloring) (jvp vjp : List R → List R) :
    Except PyErr (CSRMatrix R) := do
  let pat := toScipyPattern ⟨c.nr, c.nc, (c.rows.zip c.cols).map fun rc => (rc.1, rc.2, true)⟩
  let slots ← csrSlots pat c.rows c.cols
  let nnz := pat.indices.length
  if nnz = 0 then .ok ⟨[], pat.indptr, pat.indices, pat.nr, pat.nc⟩
  else
    let data := c.decompress (c.compressed jvp vjp)
    .ok ⟨scatterSet (List.replicate nnz 0) slots data, pat.indptr, pat.indices, pat.nr, pat.nc⟩

/-- `operator_assembler(pattern, mode)(matvec)` (`/repo/feax/asd.py:256-277`). `color` is asdex's colouring of the
coordinates it receives. Simplification: the forward product of a linear function is the function, its reverse product
`rmatvec` is an argument. -/
def operatorAssembler {R : Type} [Zero R] [One R] (color : List ℕ → List ℕ → ℕ → ℕ → Coloring) (pattern : StoredPattern)
    (matvec rmatvec : List R → List R) : Except PyErr (CSRMatrix R) :=
  let pat := toScipyPattern pattern
  csrProducer (color (cooRows pat) pat.indices pat.nr pat.nc) matvec rmatvec

/-- `sparse_jacobian_fn(f, x_sample, pattern)` (`/repo/feax/asd.py:213-231`), at one point whose products are `jvp`,
`vjp`. `detected` is what `asdex.jacobian_sparsity(f, x_sample)` gives, absent without a sample. -/
def sparseJacobian {R : Type} [Zero R] [One R] (color : List ℕ → List ℕ → ℕ → ℕ → Coloring)
    (detected : Option (List ℕ × List ℕ × ℕ × ℕ)) (pattern : Option StoredPattern) (jvp vjp : List R → List R) :
    Except PyErr (CSRMatrix R) :=
  match pattern, detected with
  | none, none => .error .valueError
  | none, some (rows, cols, nr, nc) => csrProducer (color rows cols nr nc) jvp vjp
  | some p, _ =>
    let pat := toScipyPattern p
    csrProducer (color (cooRows pat) pat.indices pat.nr pat.nc) jvp vjp

/-- The first slot holding the diagonal entry of a pinned DOF, ValueError when there is none
(`/repo/feax/flat/solver.py:254-259`). -/
def diagSlot (pat : BoolCsr) (p : ℕ) : Except PyErr ℕ :=
  match ((cooRows pat).zip pat.indices).findIdx? (fun rc => rc.1 == p && rc.2 == p) with
  | some s => .ok s
  | none => .error .valueError

/-- The pinned values of the direct homogenisation path (`/repo/feax/flat/solver.py:250-260, 265-266`): slots in a pinned row or
column are zeroed and the diagonal slots of the pins set to one. -/
def pinnedData {R : Type} [Zero R] [One R] (pat : BoolCsr) (pins : List ℕ) (data : List R) : Except PyErr (List R) := do
  let slots := (cooRows pat).zip pat.indices
  let diag ← pins.mapM (diagSlot pat)
  let kept := List.zipWith (fun rc (x : R) => if pins.contains rc.1 || pins.contains rc.2 then 0 else x) slots data
  .ok (scatterSet kept diag (diag.map fun _ => 1))

/-- The dictionary returned by `verify_jacobian_pattern`, without the ratio `coverage` (it is
`numDetected / max(numPattern, 1)`). -/
structure Verdict where
  ok : Bool
  numDetected : ℕ
  numPattern : ℕ
  numMissing : ℕ
deriving DecidableEq, Repr

/-- `verify_jacobian_pattern` (`/repo/feax/asd.py:282-311`) from the detected entries: `detected - conn` is positive
exactly at the slots of `detected` that `conn` does not store. -/
def verifyJacobianPattern (full : Bool) (n : ℕ) (detected : StoredPattern) (indptr indices : List ℕ) :
    Except PyErr Verdict := do
  let det := toScipyPattern detected
  let conn ← connectivityPattern full n indptr indices
  let missing := det.slotKeys.filter fun k => !(conn.slotKeys.contains k)
  .ok { ok := missing.length == 0
        numDetected := det.indices.length
        numPattern := conn.indices.length
        numMissing := missing.length }

end Verif.Model.Asd
