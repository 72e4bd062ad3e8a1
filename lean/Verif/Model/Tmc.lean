import Verif.Model.Geometry
import Verif.Model.Solution
import Mathlib.Analysis.SpecialFunctions.Log.Basic

/-!
# Third medium contact (`feax.mechanics.tmc`)

Exact arithmetic replaces floating point; `d` is the dimension, also the number of components.
-/

namespace Verif.Model

noncomputable section

/-- `np.mean(points[cells[:, :n_corner_nodes]], axis=1)` on one cell (`/repo/feax/mechanics/tmc.py:90`); `IndexError` for a node
number out of range (node numbers are not negative). -/
def cellCentroid {d : ℕ} (points : List (Fin d → ℝ)) (cell : List ℕ) (corners : ℕ) : Except PyErr (Fin d → ℝ) := do
  let ps ← (cell.take corners).mapM fun a => match points[a]? with
    | some p => pure p
    | none => throw .indexError
  return fun i => (ps.map fun p => p i).sum / ps.length

/-- `classify_medium_cells` (`/repo/feax/mechanics/tmc.py:88-96`). All centroids are computed before the first test. -/
def classifyMediumCells {d : ℕ} (points : List (Fin d → ℝ)) (cells : List (List ℕ)) (isMedium : (Fin d → ℝ) → Bool) (corners : ℕ := 4) :
    Except PyErr (List ℝ) := do
  let cs ← cells.mapM fun c => cellCentroid points c corners
  return cs.map fun c => if isMedium c then 1 else 0

/-- `J_min` (`/repo/feax/mechanics/tmc.py:130`). -/
def tmcJmin : ℝ := 1 / 10000

/-- `safe_lnJ` (`/repo/feax/mechanics/tmc.py:132-136`). -/
def safeLnJ (J : ℝ) : ℝ :=
  let s := (J - tmcJmin) / tmcJmin
  let ext := Real.log tmcJmin + s - 1 / 2 * s ^ 2
  if J > tmcJmin then Real.log J else ext

/-- `psi` (`/repo/feax/mechanics/tmc.py:138-146`). -/
def tmcPsi {d : ℕ} (planeStrain : Bool) (uGrad : Matrix (Fin d) (Fin d) ℝ) (mu lmbda : ℝ) : ℝ :=
  let F := uGrad + 1
  let C := F.transpose * F
  let J := F.det
  let lnJ := safeLnJ J
  let trC := C.trace
  let trC := if planeStrain then trC + 1 else trC
  mu / 2 * trC - mu * lnJ + lmbda / 2 * lnJ ^ 2

/-- `u_hess` (`/repo/feax/mechanics/tmc.py:169`). -/
def tmcHess {d n m : ℕ} (hess : Fin m → Fin n → Fin d → Fin d → ℝ) (u : Fin n → Fin d → ℝ) (q : Fin m) (v k l : Fin d) : ℝ :=
  ∑ a, u a v * hess q a k l

/-- The kernel of `get_extra_kernel`, before flattening (`/repo/feax/mechanics/tmc.py:161-185`); `hess` are the shape Hessians of the
cell. -/
def tmcKernel {d n m : ℕ} (kr : ℝ) (hess : Fin m → Fin n → Fin d → Fin d → ℝ) (jxw : Fin m → ℝ) (isMedium : ℝ)
    (u : Fin n → Fin d → ℝ) : Fin n → Fin d → ℝ := fun a v =>
  let lapl : Fin m → Fin d → ℝ := fun q v => ∑ k, tmcHess hess u q v k k
  let shapeLapl : Fin m → Fin n → ℝ := fun q a => ∑ k, hess q a k k
  let term1 : Fin m → ℝ := fun q => ∑ k, ∑ l, tmcHess hess u q v k l * hess q a k l
  let term2 : Fin m → ℝ := fun q => lapl q v * shapeLapl q a / d
  kr * isMedium * ∑ q, (term1 q - term2 q) * jxw q

/-- What `ThirdMediumContact.create` derives from its arguments. -/
structure TmcData where
  krCoeff : ℝ
  planeStrain : Bool
  mu : List ℝ
  lmbda : List ℝ

/-- `ThirdMediumContact.create` (`/repo/feax/mechanics/tmc.py:248-268`): the coefficients; the mesh and the finite element are left out.
`np.where` takes every non-zero indicator for true. -/
def tmcCreate (pointsDim : ℕ) (isMedium : List ℝ) (mu lmbda gamma0 kr : ℝ) (dim : Option ℕ) (refLength : ℝ) (planeStrain : Bool) : TmcData :=
  let dim := dim.getD pointsDim
  let plane := if dim = 3 then false else planeStrain
  ⟨kr * lmbda * refLength ^ 2, plane, isMedium.map fun m => if m ≠ 0 then mu * gamma0 else mu,
    isMedium.map fun m => if m ≠ 0 then lmbda * gamma0 else lmbda⟩

end

end Verif.Model
