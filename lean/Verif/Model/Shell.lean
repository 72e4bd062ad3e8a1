import Verif.Model.Stiffness
import Verif.Model.Kernels
import Verif.Model.Orientation

/-!
# Plates and laminates (`feax.mechanics.shell`)

Exact arithmetic replaces floating point. Angles are real numbers.
-/

namespace Verif.Model

section field
variable {K : Type} [Field K]

/-- `plate_stiffness` with `G_transverse` an array (`/repo/feax/mechanics/shell.py:131-164`). -/
def plateStiffness (C : Arr4 K 2) (h : K) (G : Arr2 K 2) (kappa : K) : Arr4 K 2 × Arr4 K 2 × Arr2 K 2 :=
  (fun i j k l => h * C i j k l, fun i j k l => h ^ 3 / 12 * C i j k l, fun i j => kappa * h * G i j)

/-- `plate_stiffness` with a scalar `G_transverse` (`/repo/feax/mechanics/shell.py:159-161`). -/
def plateStiffnessScalar (C : Arr4 K 2) (h G kappa : K) : Arr4 K 2 × Arr4 K 2 × Arr2 K 2 :=
  (fun i j k l => h * C i j k l, fun i j k l => h ^ 3 / 12 * C i j k l, fun i j => kappa * h * G * eye K 2 i j)

/-- `np.cumsum`, starting from `s`. -/
def runningSum (s : K) : List K → List K
  | [] => []
  | t :: ts => (s + t) :: runningSum (s + t) ts

/-- `z_layer_coordinates` (`/repo/feax/mechanics/shell.py:171-184`). -/
def zLayers (ts : List K) : List K :=
  let h := ts.sum
  (-h / 2) :: (runningSum 0 ts).map fun c => -h / 2 + c

/-- A material argument: one array, or one per layer (`/repo/feax/mechanics/shell.py:270-274`, `389-393`). -/
inductive PerLayer (A : Type) where
  | one (a : A)
  | each (as : List A)

/-- `np.repeat(x[None], n, axis=0)` when there is one array. -/
def PerLayer.rows {A : Type} (n : ℕ) : PerLayer A → List A
  | .one a => List.replicate n a
  | .each as => as

/-- The strains of `mindlin_strains` (`/repo/feax/mechanics/shell.py:421-467`). -/
structure PlateStrain (K : Type) where
  eps : Arr2 K 2
  kappa : Arr2 K 2
  gamma : Fin 2 → K

/-- `mindlin_strains` (`/repo/feax/mechanics/shell.py:421-467`). -/
def mindlinStrains (gradUvw : Fin 3 → Fin 2 → K) (gradTheta : Arr2 K 2) (theta : Fin 2 → K) (nonlinear : String) :
    Except PyErr (PlateStrain K) := do
  let u : Arr2 K 2 := fun i j => gradUvw i.castSucc j
  let w : Fin 2 → K := gradUvw 2
  let sym : Arr2 K 2 := fun i j => 1 / 2 * (u i j + u j i)
  let eps ← if nonlinear = "von_karman" then .ok (fun i j => sym i j + 1 / 2 * (w i * w j))
    else if nonlinear ≠ "linear" then .error .valueError else .ok sym
  return ⟨eps, fun i j => 1 / 2 * (gradTheta i j + gradTheta j i), fun i => w i + theta i⟩

/-- The stiffnesses and thermal resultants of a plate; `none` is the default of the keyword arguments. -/
structure PlateData (K : Type) where
  A : Arr4 K 2
  D : Arr4 K 2
  Gs : Arr2 K 2
  B : Option (Arr4 K 2)
  NT : Option (Arr2 K 2)
  MT : Option (Arr2 K 2)

/-- `mindlin_resultants`: the pair of tensors and the shear force (`/repo/feax/mechanics/shell.py:470-518`). -/
def mindlinResultants (e : PlateStrain K) (p : PlateData K) : Arr2 K 2 × Arr2 K 2 × (Fin 2 → K) :=
  let N := ddot p.A e.eps
  let M := ddot p.D e.kappa
  let N := match p.B with | none => N | some B => fun i j => N i j + ddot B e.kappa i j
  let M := match p.B with | none => M | some B => fun i j => M i j + ddot B e.eps i j
  let N := match p.NT with | none => N | some T => fun i j => N i j - T i j
  let M := match p.MT with | none => M | some T => fun i j => M i j - T i j
  (N, M, fun i => ∑ j, p.Gs i j * e.gamma j)

/-- `mindlin_weak_form` (`/repo/feax/mechanics/shell.py:525-606`): values and gradients of the two variables to the mass and
gradient terms. Position and parameters are not used. -/
def mindlinWeakForm (p : PlateData K) (nonlinear : String) (vals : List (List K)) (grads : List (List (List K))) :
    Except PyErr (List (List K) × List (List (List K))) := do
  let gradUvw : Fin 3 → Fin 2 → K := fun i j => ((grads.getD 0 []).getD i []).getD j 0
  let gradTheta : Arr2 K 2 := fun i j => ((grads.getD 1 []).getD i []).getD j 0
  let theta : Fin 2 → K := fun i => (vals.getD 1 []).getD i 0
  let e ← mindlinStrains gradUvw gradTheta theta nonlinear
  let r := mindlinResultants e p
  let N := r.1
  let M := r.2.1
  let Q := r.2.2
  let w : Fin 2 → K := gradUvw 2
  let q : Fin 2 → K := if nonlinear = "von_karman" then fun i => Q i + ∑ j, N i j * w j else Q
  return ([[0, 0, 0], [Q 0, Q 1]],
    [[[N 0 0, N 0 1], [N 1 0, N 1 1], [q 0, q 1]], [[M 0 0, M 0 1], [M 1 0, M 1 1]]])

end field

noncomputable section

/-- What `_per_layer` returns in `laminate_stiffness` (`/repo/feax/mechanics/shell.py:279-287`). -/
def layerStiffness (C : Arr4 ℝ 2) (G : Arr2 ℝ 2) (theta z z1 : ℝ) : Arr4 ℝ 2 × Arr4 ℝ 2 × Arr4 ℝ 2 × Arr2 ℝ 2 :=
  let Cr := rotateInPlane C theta
  let Gr := rotateInPlane2 G theta
  (fun i j k l => Cr i j k l * (z1 - z), fun i j k l => 1 / 2 * Cr i j k l * (z1 ^ 2 - z ^ 2),
    fun i j k l => 1 / 3 * Cr i j k l * (z1 ^ 3 - z ^ 3), fun i j => Gr i j * (z1 - z))

/-- One layer after `vmap` has lined up the arguments. -/
structure LayerRow (A B : Type) where
  C : A
  G : B
  theta : ℝ
  lo : ℝ
  hi : ℝ

/-- `jax.vmap` over the five arrays: refused unless they have the same length
(`/repo/feax/mechanics/shell.py:289-291`, `411`). -/
def layerRows {A B : Type} (Cs : List A) (Gs : List B) (thetas ts : List ℝ) : Except PyErr (List (LayerRow A B)) :=
  let z := zLayers ts
  let lo := z.dropLast
  let hi := z.drop 1
  if Cs.length = thetas.length ∧ Gs.length = thetas.length ∧ lo.length = thetas.length then
    .ok ((Cs.zip (Gs.zip (thetas.zip (lo.zip hi)))).map fun r => ⟨r.1, r.2.1, r.2.2.1, r.2.2.2.1, r.2.2.2.2⟩)
  else .error .valueError

/-- The laminate stiffnesses `A`, `B`, `D`, `G_s`. -/
structure Laminate where
  A : Arr4 ℝ 2
  B : Arr4 ℝ 2
  D : Arr4 ℝ 2
  Gs : Arr2 ℝ 2

/-- `laminate_stiffness` (`/repo/feax/mechanics/shell.py:210-296`). -/
def laminateStiffness (C : PerLayer (Arr4 ℝ 2)) (G : PerLayer (Arr2 ℝ 2)) (thetas ts : List ℝ) (kappa : ℝ) :
    Except PyErr Laminate := do
  let n := thetas.length
  if ts.length ≠ n then throw .valueError
  let rows ← layerRows (C.rows n) (G.rows n) thetas ts
  let ks := rows.map fun r => layerStiffness r.C r.G r.theta r.lo r.hi
  return ⟨fun i j k l => (ks.map fun x => x.1 i j k l).sum, fun i j k l => (ks.map fun x => x.2.1 i j k l).sum,
    fun i j k l => (ks.map fun x => x.2.2.1 i j k l).sum, fun i j => kappa * (ks.map fun x => x.2.2.2 i j).sum⟩

/-- What `_per_layer` returns in `laminate_thermal_loads` (`/repo/feax/mechanics/shell.py:398-409`). -/
def layerThermal (C : Arr4 ℝ 2) (alpha : Arr2 ℝ 2) (theta z z1 dT grad : ℝ) : Arr2 ℝ 2 × Arr2 ℝ 2 :=
  let sig := ddot (rotateInPlane C theta) (rotateInPlane2 alpha theta)
  let I := dT * (z1 - z) + 1 / 2 * grad * (z1 ^ 2 - z ^ 2)
  let J := 1 / 2 * dT * (z1 ^ 2 - z ^ 2) + 1 / 3 * grad * (z1 ^ 3 - z ^ 3)
  (fun i j => sig i j * I, fun i j => sig i j * J)

/-- `laminate_thermal_loads` (`/repo/feax/mechanics/shell.py:337-412`). -/
def laminateThermalLoads (C : PerLayer (Arr4 ℝ 2)) (alpha : PerLayer (Arr2 ℝ 2)) (thetas ts : List ℝ) (dT grad : ℝ) :
    Except PyErr (Arr2 ℝ 2 × Arr2 ℝ 2) := do
  let n := thetas.length
  if ts.length ≠ n then throw .valueError
  let rows ← layerRows (C.rows n) (alpha.rows n) thetas ts
  let ks := rows.map fun r => layerThermal r.C r.G r.theta r.lo r.hi dT grad
  return (fun i j => (ks.map fun x => x.1 i j).sum, fun i j => (ks.map fun x => x.2 i j).sum)

end

end Verif.Model
