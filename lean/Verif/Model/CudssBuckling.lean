import Verif.Model.Buckling

/-!
# `feax.solvers.eigen`: the GPU (`cudss`) and `matfree` buckling backends

Floating point numbers are real numbers. `num_modes` is at least one.
-/

namespace Verif.Model.Buckling
open Matrix

/-! ## Restriction to the free DOFs as a gather -/

/-- The slots of `M` that hold entry `(r, c)`. -/
def slotsAt {R : Type*} (M : CSRMatrix R) (r c : ℕ) : List ℕ :=
  (List.range M.indices.length).filter fun s => M.rowOfSlot.getD s 0 == r && M.indices.getD s 0 == c

/-- The entries `(i, j, slot)` of `R = A[free][:, free].tocsr()` after `sort_indices`, `A` holding `slot + 1` in each slot
(`/repo/feax/solvers/eigen.py:436-442`): row by row, columns ascending. -/
def redEntries {R : Type*} (M : CSRMatrix R) (free : List ℕ) : List (ℕ × ℕ × ℕ) :=
  (List.range free.length).flatMap fun i => (List.range free.length).flatMap fun j =>
    (slotsAt M (free.getD i 0) (free.getD j 0)).map fun s => (i, j, s)

/-- `slots` (`/repo/feax/solvers/eigen.py:443`). -/
def redSlots {R : Type*} (M : CSRMatrix R) (free : List ℕ) : List ℕ := (redEntries M free).map (·.2.2)

/-- The reduced matrix with given values on the captured pattern: `CSRMatrix(data, ip, ix, (nf, nf))`
(`/repo/feax/solvers/eigen.py:503-504`). -/
def redMatrix {R : Type*} (M : CSRMatrix R) (free : List ℕ) (data : List R) : CSRMatrix R :=
  ⟨data, ptrOfRows free.length ((redEntries M free).map (·.1)), (redEntries M free).map (·.2.1), free.length, free.length⟩

/-- `TpermK`: the positions of the entries in the order of the transposed pattern (`/repo/feax/solvers/eigen.py:450-454`). -/
def redTperm {R : Type*} (M : CSRMatrix R) (free : List ℕ) : List ℕ :=
  argsort (coordKeys free.length ((redEntries M free).map (·.2.1)) ((redEntries M free).map (·.1)))

/-- `Kg_red` (`/repo/feax/solvers/eigen.py:503`). -/
def redKg (M : CSRMatrix ℝ) (free : List ℕ) : CSRMatrix ℝ := redMatrix M free (gather 0 M.data (redSlots M free))

/-- `kf = K.data[slotK]; kf = 0.5 * (kf + kf[TpermK])` as the matrix `Kf_red` (`/repo/feax/solvers/eigen.py:501-502,504`). -/
noncomputable def redK (M : CSRMatrix ℝ) (free : List ℕ) : CSRMatrix ℝ :=
  let kf := gather 0 M.data (redSlots M free)
  redMatrix M free (List.zipWith (fun a b => (1 / 2 : ℝ) * (a + b)) kf (gather 0 kf (redTperm M free)))

/-- The dense form of a square matrix of a given size. -/
def dense {R : Type*} [AddCommMonoid R] (n : ℕ) (M : CSRMatrix R) : Matrix (Fin n) (Fin n) R := fun i j => M.todense i j

/-! ## The solver -/

/-- The library routines this path calls: `factorize` and `solve_with` of spineax, `onp.linalg.eig` (real part, imaginary part
and the real part of the vector of each pair), `onp.argsort`. -/
structure CudssOps where
  solve : {n : ℕ} → Matrix (Fin n) (Fin n) ℝ → (Fin n → ℝ) → Fin n → ℝ
  eig : {m : ℕ} → Matrix (Fin m) (Fin m) ℝ → List (ℝ × ℝ × (Fin m → ℝ))
  argsort : {n : ℕ} → (Fin n → WithTop ℝ) → List (Fin n)

/-- The number of steps (`/repo/feax/solvers/eigen.py:417`). -/
def cudssSteps (nf mo numMatvecs : ℕ) : ℕ := min nf (max numMatvecs (2 * mo + 10))

/-- `valid` (`/repo/feax/solvers/eigen.py:466-469`, and `:655-658` of `_matfree_buckling`). -/
noncomputable def ritzValid {V : Type*} (e : ℝ × ℝ × V) : Bool :=
  open Classical in decide (|e.2.1| ≤ 1 / 10 ^ 8 * (|e.1| + 1 / 10 ^ 30) ∧ e.1 ≠ 0 ∧ sparseTol < 1 / e.1)

/-- `order` (`/repo/feax/solvers/eigen.py:470-471`, and `:659-660`). -/
noncomputable def ritzOrder {V : Type*} (ops : CudssOps) (mo : ℕ) (l : List (ℝ × ℝ × V)) : List (Fin l.length) :=
  ((ops.argsort fun i => if ritzValid (l.get i) then ((1 / (l.get i).1 : ℝ) : WithTop ℝ) else ⊤).filter
    fun i => ritzValid (l.get i)).take mo

/-- A row of `coeff` (`/repo/feax/solvers/eigen.py:478,482-483`): the vector over its length (`+ 1e-30`), zero past the last entry. -/
noncomputable def ritzCoeff {m : ℕ} (y : Fin m → ℝ) (j : ℕ) : ℝ :=
  if h : j < m then y ⟨j, h⟩ / (vnorm y + 1 / 10 ^ 30) else 0

/-- One row of `coeff @ V` (`/repo/feax/solvers/eigen.py:535`). -/
noncomputable def ritzRow {n : ℕ} (V : List (Fin n → ℝ)) (m : ℕ) (c : ℕ → ℝ) : Fin n → ℝ :=
  ∑ j ∈ Finset.range m, c j • V.getD j 0

/-- Scaling of a row (`/repo/feax/solvers/eigen.py:537-539`): `where(e > 0, 1 / sqrt(|e| + 1e-300), 0)` times the row. -/
noncomputable def ritzScale {n : ℕ} (Kf : Matrix (Fin n) (Fin n) ℝ) (x : Fin n → ℝ) : Fin n → ℝ :=
  open Classical in
  (if 0 < vdot x (Kf *ᵥ x) then 1 / Real.sqrt (|vdot x (Kf *ᵥ x)| + 1 / 10 ^ 300) else 0) • x

/-- `T_apply` (`/repo/feax/solvers/eigen.py:508-509`). -/
def tApply {n : ℕ} (ops : CudssOps) (Kf Kgf : Matrix (Fin n) (Fin n) ℝ) (v : Fin n → ℝ) : Fin n → ℝ := -(ops.solve Kf (Kgf *ᵥ v))

/-- `H[:m, :m]` (`/repo/feax/solvers/eigen.py:465`). -/
def hessMatrix (m : ℕ) (H : List (List ℝ)) : Matrix (Fin m) (Fin m) ℝ := fun i j => hess H i j

/-- `res0` (`/repo/feax/solvers/eigen.py:542-543`). -/
noncomputable def cudssResidual {n : ℕ} (T : (Fin n → ℝ) → Fin n → ℝ) (mu : ℝ) (phi : Fin n → ℝ) : ℝ :=
  let x0 := (1 / (vnorm phi + 1 / 10 ^ 30)) • phi
  vnorm (T x0 - mu • x0)

/-- `_forward` of `_create_cudss_bf` from the reduced stiffness and the operator on (`/repo/feax/solvers/eigen.py:511-548`), with
`_host_ritz` (`:463-484`) and `_host_check` (`:486-496`). `conv_tol = None` is `none`; `N` is the number of DOFs. `v0` stands for the
seeded random vector; printing is left out. -/
noncomputable def cudssRun (ops : CudssOps) (m mo : ℕ) (convTol : Option ℝ) (N : ℕ) (free : List ℕ) (v0 : Fin free.length → ℝ)
    (Kf : Matrix (Fin free.length) (Fin free.length) ℝ) (T : (Fin free.length → ℝ) → Fin free.length → ℝ) : Except PyErr (List Mode) :=
  let VH := arnoldi T v0 m
  let prs := ops.eig (hessMatrix m VH.2)
  let order := ritzOrder ops mo prs
  let phi := fun c => ritzScale Kf (ritzRow VH.1 m (ritzCoeff (prs.get c).2.2))
  let found := order.map fun c => Mode.mk (.fin (1 / (prs.get c).1)) (scatterMode N free (phi c)) (List.ofFn (phi c))
  let out := found ++ List.replicate (mo - found.length) (Mode.mk .pinf (List.replicate N 0) (List.replicate free.length 0))
  match convTol with
  | none => .ok out
  | some tol =>
    match order with
    | [] => .error .runtimeError
    | c :: _ => open Classical in
      if tol < cudssResidual T (prs.get c).1 (phi c) then .error .runtimeError else .ok out

/-- `_forward` of `_create_cudss_bf` (`/repo/feax/solvers/eigen.py:498-548`) with the check `m < 2` at construction (`:417-420`).
Simplification: the captured structure is that of the matrices given (`useCudss` treats the rest). -/
noncomputable def cudssForward (ops : CudssOps) (numMatvecs mo : ℕ) (convTol : Option ℝ) (free : List ℕ)
    (v0 : Fin free.length → ℝ) (K Kg : CSRMatrix ℝ) : Except PyErr (List Mode) :=
  let m := cudssSteps free.length mo numMatvecs
  if m < 2 then .error .runtimeError
  else
    let Kf := dense free.length (redK K free)
    cudssRun ops m mo convTol K.numRows free v0 Kf (tApply ops Kf (dense free.length (redKg Kg free)))

/-- `_matfree_buckling` (`/repo/feax/solvers/eigen.py:575-688`) from the pairs `vv` (real part, imaginary part, real part of the vector)
that `matfree` returns for `T = -K⁻¹ K_g` (`:652-653`). Simplification: the factor-and-solve is the exact inverse, printing is left out. -/
noncomputable def matfreeBuckling (ops : CudssOps) (m : ℕ) (convTol : Option ℝ) (free : List ℕ) (K Kg : CSRMatrix ℝ)
    (vv : List (ℝ × ℝ × (Fin free.length → ℝ))) : Except PyErr (List (ℝ × List ℝ)) :=
  let T := shiftInvert (restrict K free) (restrict Kg free)
  let order := ritzOrder ops m vv
  let out := order.map fun c => (1 / (vv.get c).1, scatterMode K.numRows free (vv.get c).2.2)
  match convTol with
  | none => .ok out
  | some tol =>
    match order with
    | [] => .error .runtimeError
    | c :: _ => open Classical in
      if tol < ritzResidual T ((vv.get c).1, (vv.get c).2.2) then .error .runtimeError else .ok out

end Verif.Model.Buckling
